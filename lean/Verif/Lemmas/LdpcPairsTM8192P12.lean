import Verif.Lemmas.LdpcPairsTM8192P11

/-! Kernel evaluations of `LdpcCode.pairTest` (tools/gen_ldpc_pairs.py). -/
namespace Sia
namespace LdpcCode

theorem pair_TM8192_0_11 : pairTest .TM8192 0 11 = true := by decide +kernel
theorem pair_TM8192_1_11 : pairTest .TM8192 1 11 = true := by decide +kernel
theorem pair_TM8192_2_11 : pairTest .TM8192 2 11 = true := by decide +kernel
theorem pair_TM8192_3_11 : pairTest .TM8192 3 11 = true := by decide +kernel
theorem pair_TM8192_4_11 : pairTest .TM8192 4 11 = true := by decide +kernel
theorem pair_TM8192_5_11 : pairTest .TM8192 5 11 = true := by decide +kernel

end LdpcCode
end Sia
