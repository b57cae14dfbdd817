import Verif.Lemmas.LdpcPairsTM8192P19

/-! Kernel evaluations of `LdpcCode.pairTest` (tools/gen_ldpc_pairs.py). -/
namespace Sia
namespace LdpcCode

theorem pair_TM8192_9_14 : pairTest .TM8192 9 14 = true := by decide +kernel
theorem pair_TM8192_10_14 : pairTest .TM8192 10 14 = true := by decide +kernel
theorem pair_TM8192_11_14 : pairTest .TM8192 11 14 = true := by decide +kernel
theorem pair_TM8192_12_14 : pairTest .TM8192 12 14 = true := by decide +kernel
theorem pair_TM8192_13_14 : pairTest .TM8192 13 14 = true := by decide +kernel
theorem pair_TM8192_14_14 : pairTest .TM8192 14 14 = true := by decide +kernel

end LdpcCode
end Sia
