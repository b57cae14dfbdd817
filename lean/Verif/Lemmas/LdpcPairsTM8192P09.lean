import Verif.Lemmas.LdpcPairsTM8192P08

/-! Kernel evaluations of `LdpcCode.pairTest` (tools/gen_ldpc_pairs.py). -/
namespace Sia
namespace LdpcCode

theorem pair_TM8192_3_9 : pairTest .TM8192 3 9 = true := by decide +kernel
theorem pair_TM8192_4_9 : pairTest .TM8192 4 9 = true := by decide +kernel
theorem pair_TM8192_5_9 : pairTest .TM8192 5 9 = true := by decide +kernel
theorem pair_TM8192_6_9 : pairTest .TM8192 6 9 = true := by decide +kernel
theorem pair_TM8192_7_9 : pairTest .TM8192 7 9 = true := by decide +kernel
theorem pair_TM8192_8_9 : pairTest .TM8192 8 9 = true := by decide +kernel

end LdpcCode
end Sia
