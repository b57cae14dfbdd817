import Verif.Lemmas.LdpcPairsTM8192P04

/-! Kernel evaluations of `LdpcCode.pairTest` (tools/gen_ldpc_pairs.py). -/
namespace Sia
namespace LdpcCode

theorem pair_TM8192_3_6 : pairTest .TM8192 3 6 = true := by decide +kernel
theorem pair_TM8192_4_6 : pairTest .TM8192 4 6 = true := by decide +kernel
theorem pair_TM8192_5_6 : pairTest .TM8192 5 6 = true := by decide +kernel
theorem pair_TM8192_6_6 : pairTest .TM8192 6 6 = true := by decide +kernel
theorem pair_TM8192_0_7 : pairTest .TM8192 0 7 = true := by decide +kernel
theorem pair_TM8192_1_7 : pairTest .TM8192 1 7 = true := by decide +kernel

end LdpcCode
end Sia
