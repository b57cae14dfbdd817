import Verif.Lemmas.LdpcPairsTM8192P02

/-! Kernel evaluations of `LdpcCode.pairTest` (tools/gen_ldpc_pairs.py). -/
namespace Sia
namespace LdpcCode

theorem pair_TM8192_2_4 : pairTest .TM8192 2 4 = true := by decide +kernel
theorem pair_TM8192_3_4 : pairTest .TM8192 3 4 = true := by decide +kernel
theorem pair_TM8192_4_4 : pairTest .TM8192 4 4 = true := by decide +kernel
theorem pair_TM8192_0_5 : pairTest .TM8192 0 5 = true := by decide +kernel
theorem pair_TM8192_1_5 : pairTest .TM8192 1 5 = true := by decide +kernel
theorem pair_TM8192_2_5 : pairTest .TM8192 2 5 = true := by decide +kernel

end LdpcCode
end Sia
