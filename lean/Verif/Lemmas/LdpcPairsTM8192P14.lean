import Verif.Lemmas.LdpcPairsTM8192P13

/-! Kernel evaluations of `LdpcCode.pairTest` (tools/gen_ldpc_pairs.py). -/
namespace Sia
namespace LdpcCode

theorem pair_TM8192_0_12 : pairTest .TM8192 0 12 = true := by decide +kernel
theorem pair_TM8192_1_12 : pairTest .TM8192 1 12 = true := by decide +kernel
theorem pair_TM8192_2_12 : pairTest .TM8192 2 12 = true := by decide +kernel
theorem pair_TM8192_3_12 : pairTest .TM8192 3 12 = true := by decide +kernel
theorem pair_TM8192_4_12 : pairTest .TM8192 4 12 = true := by decide +kernel
theorem pair_TM8192_5_12 : pairTest .TM8192 5 12 = true := by decide +kernel

end LdpcCode
end Sia
