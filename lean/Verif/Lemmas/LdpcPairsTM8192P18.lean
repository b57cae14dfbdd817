import Verif.Lemmas.LdpcPairsTM8192P17

/-! Kernel evaluations of `LdpcCode.pairTest` (tools/gen_ldpc_pairs.py). -/
namespace Sia
namespace LdpcCode

theorem pair_TM8192_11_13 : pairTest .TM8192 11 13 = true := by decide +kernel
theorem pair_TM8192_12_13 : pairTest .TM8192 12 13 = true := by decide +kernel
theorem pair_TM8192_13_13 : pairTest .TM8192 13 13 = true := by decide +kernel
theorem pair_TM8192_0_14 : pairTest .TM8192 0 14 = true := by decide +kernel
theorem pair_TM8192_1_14 : pairTest .TM8192 1 14 = true := by decide +kernel
theorem pair_TM8192_2_14 : pairTest .TM8192 2 14 = true := by decide +kernel

end LdpcCode
end Sia
