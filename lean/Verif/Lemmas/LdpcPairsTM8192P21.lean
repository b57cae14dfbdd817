import Verif.Lemmas.LdpcPairsTM8192P20

/-! Kernel evaluations of `LdpcCode.pairTest` (tools/gen_ldpc_pairs.py). -/
namespace Sia
namespace LdpcCode

theorem pair_TM8192_0_15 : pairTest .TM8192 0 15 = true := by decide +kernel
theorem pair_TM8192_1_15 : pairTest .TM8192 1 15 = true := by decide +kernel
theorem pair_TM8192_2_15 : pairTest .TM8192 2 15 = true := by decide +kernel
theorem pair_TM8192_3_15 : pairTest .TM8192 3 15 = true := by decide +kernel
theorem pair_TM8192_4_15 : pairTest .TM8192 4 15 = true := by decide +kernel
theorem pair_TM8192_5_15 : pairTest .TM8192 5 15 = true := by decide +kernel

end LdpcCode
end Sia
