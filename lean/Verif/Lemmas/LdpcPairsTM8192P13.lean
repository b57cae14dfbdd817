import Verif.Lemmas.LdpcPairsTM8192P12

/-! Kernel evaluations of `LdpcCode.pairTest` (tools/gen_ldpc_pairs.py). -/
namespace Sia
namespace LdpcCode

theorem pair_TM8192_6_11 : pairTest .TM8192 6 11 = true := by decide +kernel
theorem pair_TM8192_7_11 : pairTest .TM8192 7 11 = true := by decide +kernel
theorem pair_TM8192_8_11 : pairTest .TM8192 8 11 = true := by decide +kernel
theorem pair_TM8192_9_11 : pairTest .TM8192 9 11 = true := by decide +kernel
theorem pair_TM8192_10_11 : pairTest .TM8192 10 11 = true := by decide +kernel
theorem pair_TM8192_11_11 : pairTest .TM8192 11 11 = true := by decide +kernel

end LdpcCode
end Sia
