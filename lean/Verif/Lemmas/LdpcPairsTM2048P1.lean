import Verif.Lemmas.LdpcPairsTC

/-! Kernel evaluations of `LdpcCode.pairTest` (tools/gen_ldpc_pairs.py). -/
namespace Sia
namespace LdpcCode

theorem pair_TM2048_0_0 : pairTest .TM2048 0 0 = true := by decide +kernel
theorem pair_TM2048_0_1 : pairTest .TM2048 0 1 = true := by decide +kernel
theorem pair_TM2048_1_1 : pairTest .TM2048 1 1 = true := by decide +kernel
theorem pair_TM2048_0_2 : pairTest .TM2048 0 2 = true := by decide +kernel
theorem pair_TM2048_1_2 : pairTest .TM2048 1 2 = true := by decide +kernel
theorem pair_TM2048_2_2 : pairTest .TM2048 2 2 = true := by decide +kernel
theorem pair_TM2048_0_3 : pairTest .TM2048 0 3 = true := by decide +kernel
theorem pair_TM2048_1_3 : pairTest .TM2048 1 3 = true := by decide +kernel
theorem pair_TM2048_2_3 : pairTest .TM2048 2 3 = true := by decide +kernel
theorem pair_TM2048_3_3 : pairTest .TM2048 3 3 = true := by decide +kernel
theorem pair_TM2048_0_4 : pairTest .TM2048 0 4 = true := by decide +kernel
theorem pair_TM2048_1_4 : pairTest .TM2048 1 4 = true := by decide +kernel
theorem pair_TM2048_2_4 : pairTest .TM2048 2 4 = true := by decide +kernel
theorem pair_TM2048_3_4 : pairTest .TM2048 3 4 = true := by decide +kernel
theorem pair_TM2048_4_4 : pairTest .TM2048 4 4 = true := by decide +kernel
theorem pair_TM2048_0_5 : pairTest .TM2048 0 5 = true := by decide +kernel
theorem pair_TM2048_1_5 : pairTest .TM2048 1 5 = true := by decide +kernel
theorem pair_TM2048_2_5 : pairTest .TM2048 2 5 = true := by decide +kernel
theorem pair_TM2048_3_5 : pairTest .TM2048 3 5 = true := by decide +kernel
theorem pair_TM2048_4_5 : pairTest .TM2048 4 5 = true := by decide +kernel
theorem pair_TM2048_5_5 : pairTest .TM2048 5 5 = true := by decide +kernel
theorem pair_TM2048_0_6 : pairTest .TM2048 0 6 = true := by decide +kernel
theorem pair_TM2048_1_6 : pairTest .TM2048 1 6 = true := by decide +kernel
theorem pair_TM2048_2_6 : pairTest .TM2048 2 6 = true := by decide +kernel
theorem pair_TM2048_3_6 : pairTest .TM2048 3 6 = true := by decide +kernel
theorem pair_TM2048_4_6 : pairTest .TM2048 4 6 = true := by decide +kernel
theorem pair_TM2048_5_6 : pairTest .TM2048 5 6 = true := by decide +kernel
theorem pair_TM2048_6_6 : pairTest .TM2048 6 6 = true := by decide +kernel
theorem pair_TM2048_0_7 : pairTest .TM2048 0 7 = true := by decide +kernel
theorem pair_TM2048_1_7 : pairTest .TM2048 1 7 = true := by decide +kernel
theorem pair_TM2048_2_7 : pairTest .TM2048 2 7 = true := by decide +kernel
theorem pair_TM2048_3_7 : pairTest .TM2048 3 7 = true := by decide +kernel
theorem pair_TM2048_4_7 : pairTest .TM2048 4 7 = true := by decide +kernel
theorem pair_TM2048_5_7 : pairTest .TM2048 5 7 = true := by decide +kernel

end LdpcCode
end Sia
