import Verif.Lemmas.LdpcPairsTM8192P10

/-! Kernel evaluations of `LdpcCode.pairTest` (tools/gen_ldpc_pairs.py). -/
namespace Sia
namespace LdpcCode

theorem pair_TM8192_5_10 : pairTest .TM8192 5 10 = true := by decide +kernel
theorem pair_TM8192_6_10 : pairTest .TM8192 6 10 = true := by decide +kernel
theorem pair_TM8192_7_10 : pairTest .TM8192 7 10 = true := by decide +kernel
theorem pair_TM8192_8_10 : pairTest .TM8192 8 10 = true := by decide +kernel
theorem pair_TM8192_9_10 : pairTest .TM8192 9 10 = true := by decide +kernel
theorem pair_TM8192_10_10 : pairTest .TM8192 10 10 = true := by decide +kernel

end LdpcCode
end Sia
