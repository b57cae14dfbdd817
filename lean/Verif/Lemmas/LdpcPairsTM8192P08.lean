import Verif.Lemmas.LdpcPairsTM8192P07

/-! Kernel evaluations of `LdpcCode.pairTest` (tools/gen_ldpc_pairs.py). -/
namespace Sia
namespace LdpcCode

theorem pair_TM8192_6_8 : pairTest .TM8192 6 8 = true := by decide +kernel
theorem pair_TM8192_7_8 : pairTest .TM8192 7 8 = true := by decide +kernel
theorem pair_TM8192_8_8 : pairTest .TM8192 8 8 = true := by decide +kernel
theorem pair_TM8192_0_9 : pairTest .TM8192 0 9 = true := by decide +kernel
theorem pair_TM8192_1_9 : pairTest .TM8192 1 9 = true := by decide +kernel
theorem pair_TM8192_2_9 : pairTest .TM8192 2 9 = true := by decide +kernel

end LdpcCode
end Sia
