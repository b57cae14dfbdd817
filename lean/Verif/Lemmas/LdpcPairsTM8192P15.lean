import Verif.Lemmas.LdpcPairsTM8192P14

/-! Kernel evaluations of `LdpcCode.pairTest` (tools/gen_ldpc_pairs.py). -/
namespace Sia
namespace LdpcCode

theorem pair_TM8192_6_12 : pairTest .TM8192 6 12 = true := by decide +kernel
theorem pair_TM8192_7_12 : pairTest .TM8192 7 12 = true := by decide +kernel
theorem pair_TM8192_8_12 : pairTest .TM8192 8 12 = true := by decide +kernel
theorem pair_TM8192_9_12 : pairTest .TM8192 9 12 = true := by decide +kernel
theorem pair_TM8192_10_12 : pairTest .TM8192 10 12 = true := by decide +kernel
theorem pair_TM8192_11_12 : pairTest .TM8192 11 12 = true := by decide +kernel

end LdpcCode
end Sia
