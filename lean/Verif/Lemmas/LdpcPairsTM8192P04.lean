import Verif.Lemmas.LdpcPairsTM8192P03

/-! Kernel evaluations of `LdpcCode.pairTest` (tools/gen_ldpc_pairs.py). -/
namespace Sia
namespace LdpcCode

theorem pair_TM8192_3_5 : pairTest .TM8192 3 5 = true := by decide +kernel
theorem pair_TM8192_4_5 : pairTest .TM8192 4 5 = true := by decide +kernel
theorem pair_TM8192_5_5 : pairTest .TM8192 5 5 = true := by decide +kernel
theorem pair_TM8192_0_6 : pairTest .TM8192 0 6 = true := by decide +kernel
theorem pair_TM8192_1_6 : pairTest .TM8192 1 6 = true := by decide +kernel
theorem pair_TM8192_2_6 : pairTest .TM8192 2 6 = true := by decide +kernel

end LdpcCode
end Sia
