import Verif.Lemmas.LdpcPairsTM8192P09

/-! Kernel evaluations of `LdpcCode.pairTest` (tools/gen_ldpc_pairs.py). -/
namespace Sia
namespace LdpcCode

theorem pair_TM8192_9_9 : pairTest .TM8192 9 9 = true := by decide +kernel
theorem pair_TM8192_0_10 : pairTest .TM8192 0 10 = true := by decide +kernel
theorem pair_TM8192_1_10 : pairTest .TM8192 1 10 = true := by decide +kernel
theorem pair_TM8192_2_10 : pairTest .TM8192 2 10 = true := by decide +kernel
theorem pair_TM8192_3_10 : pairTest .TM8192 3 10 = true := by decide +kernel
theorem pair_TM8192_4_10 : pairTest .TM8192 4 10 = true := by decide +kernel

end LdpcCode
end Sia
