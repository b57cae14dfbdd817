import Verif.Lemmas.LdpcPairsTM8192P15

/-! Kernel evaluations of `LdpcCode.pairTest` (tools/gen_ldpc_pairs.py). -/
namespace Sia
namespace LdpcCode

theorem pair_TM8192_12_12 : pairTest .TM8192 12 12 = true := by decide +kernel
theorem pair_TM8192_0_13 : pairTest .TM8192 0 13 = true := by decide +kernel
theorem pair_TM8192_1_13 : pairTest .TM8192 1 13 = true := by decide +kernel
theorem pair_TM8192_2_13 : pairTest .TM8192 2 13 = true := by decide +kernel
theorem pair_TM8192_3_13 : pairTest .TM8192 3 13 = true := by decide +kernel
theorem pair_TM8192_4_13 : pairTest .TM8192 4 13 = true := by decide +kernel

end LdpcCode
end Sia
