import Verif.Lemmas.LdpcPairsTM8192P21

/-! Kernel evaluations of `LdpcCode.pairTest` (tools/gen_ldpc_pairs.py). -/
namespace Sia
namespace LdpcCode

theorem pair_TM8192_6_15 : pairTest .TM8192 6 15 = true := by decide +kernel
theorem pair_TM8192_7_15 : pairTest .TM8192 7 15 = true := by decide +kernel
theorem pair_TM8192_8_15 : pairTest .TM8192 8 15 = true := by decide +kernel
theorem pair_TM8192_9_15 : pairTest .TM8192 9 15 = true := by decide +kernel
theorem pair_TM8192_10_15 : pairTest .TM8192 10 15 = true := by decide +kernel
theorem pair_TM8192_11_15 : pairTest .TM8192 11 15 = true := by decide +kernel

end LdpcCode
end Sia
