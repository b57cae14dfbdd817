import Verif.Lemmas.LdpcPairsTM8192P01

/-! Kernel evaluations of `LdpcCode.pairTest` (tools/gen_ldpc_pairs.py). -/
namespace Sia
namespace LdpcCode

theorem pair_TM8192_0_3 : pairTest .TM8192 0 3 = true := by decide +kernel
theorem pair_TM8192_1_3 : pairTest .TM8192 1 3 = true := by decide +kernel
theorem pair_TM8192_2_3 : pairTest .TM8192 2 3 = true := by decide +kernel
theorem pair_TM8192_3_3 : pairTest .TM8192 3 3 = true := by decide +kernel
theorem pair_TM8192_0_4 : pairTest .TM8192 0 4 = true := by decide +kernel
theorem pair_TM8192_1_4 : pairTest .TM8192 1 4 = true := by decide +kernel

end LdpcCode
end Sia
