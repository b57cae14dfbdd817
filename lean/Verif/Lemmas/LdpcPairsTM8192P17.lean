import Verif.Lemmas.LdpcPairsTM8192P16

/-! Kernel evaluations of `LdpcCode.pairTest` (tools/gen_ldpc_pairs.py). -/
namespace Sia
namespace LdpcCode

theorem pair_TM8192_5_13 : pairTest .TM8192 5 13 = true := by decide +kernel
theorem pair_TM8192_6_13 : pairTest .TM8192 6 13 = true := by decide +kernel
theorem pair_TM8192_7_13 : pairTest .TM8192 7 13 = true := by decide +kernel
theorem pair_TM8192_8_13 : pairTest .TM8192 8 13 = true := by decide +kernel
theorem pair_TM8192_9_13 : pairTest .TM8192 9 13 = true := by decide +kernel
theorem pair_TM8192_10_13 : pairTest .TM8192 10 13 = true := by decide +kernel

end LdpcCode
end Sia
