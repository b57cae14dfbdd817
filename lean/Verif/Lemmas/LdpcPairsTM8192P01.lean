import Verif.Lemmas.LdpcPairsTM2048P4

/-! Kernel evaluations of `LdpcCode.pairTest` (tools/gen_ldpc_pairs.py). -/
namespace Sia
namespace LdpcCode

theorem pair_TM8192_0_0 : pairTest .TM8192 0 0 = true := by decide +kernel
theorem pair_TM8192_0_1 : pairTest .TM8192 0 1 = true := by decide +kernel
theorem pair_TM8192_1_1 : pairTest .TM8192 1 1 = true := by decide +kernel
theorem pair_TM8192_0_2 : pairTest .TM8192 0 2 = true := by decide +kernel
theorem pair_TM8192_1_2 : pairTest .TM8192 1 2 = true := by decide +kernel
theorem pair_TM8192_2_2 : pairTest .TM8192 2 2 = true := by decide +kernel

end LdpcCode
end Sia
