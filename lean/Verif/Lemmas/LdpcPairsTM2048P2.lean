import Verif.Lemmas.LdpcPairsTM2048P1

/-! Kernel evaluations of `LdpcCode.pairTest` (tools/gen_ldpc_pairs.py). -/
namespace Sia
namespace LdpcCode

theorem pair_TM2048_6_7 : pairTest .TM2048 6 7 = true := by decide +kernel
theorem pair_TM2048_7_7 : pairTest .TM2048 7 7 = true := by decide +kernel
theorem pair_TM2048_0_8 : pairTest .TM2048 0 8 = true := by decide +kernel
theorem pair_TM2048_1_8 : pairTest .TM2048 1 8 = true := by decide +kernel
theorem pair_TM2048_2_8 : pairTest .TM2048 2 8 = true := by decide +kernel
theorem pair_TM2048_3_8 : pairTest .TM2048 3 8 = true := by decide +kernel
theorem pair_TM2048_4_8 : pairTest .TM2048 4 8 = true := by decide +kernel
theorem pair_TM2048_5_8 : pairTest .TM2048 5 8 = true := by decide +kernel
theorem pair_TM2048_6_8 : pairTest .TM2048 6 8 = true := by decide +kernel
theorem pair_TM2048_7_8 : pairTest .TM2048 7 8 = true := by decide +kernel
theorem pair_TM2048_8_8 : pairTest .TM2048 8 8 = true := by decide +kernel
theorem pair_TM2048_0_9 : pairTest .TM2048 0 9 = true := by decide +kernel
theorem pair_TM2048_1_9 : pairTest .TM2048 1 9 = true := by decide +kernel
theorem pair_TM2048_2_9 : pairTest .TM2048 2 9 = true := by decide +kernel
theorem pair_TM2048_3_9 : pairTest .TM2048 3 9 = true := by decide +kernel
theorem pair_TM2048_4_9 : pairTest .TM2048 4 9 = true := by decide +kernel
theorem pair_TM2048_5_9 : pairTest .TM2048 5 9 = true := by decide +kernel
theorem pair_TM2048_6_9 : pairTest .TM2048 6 9 = true := by decide +kernel
theorem pair_TM2048_7_9 : pairTest .TM2048 7 9 = true := by decide +kernel
theorem pair_TM2048_8_9 : pairTest .TM2048 8 9 = true := by decide +kernel
theorem pair_TM2048_9_9 : pairTest .TM2048 9 9 = true := by decide +kernel
theorem pair_TM2048_0_10 : pairTest .TM2048 0 10 = true := by decide +kernel
theorem pair_TM2048_1_10 : pairTest .TM2048 1 10 = true := by decide +kernel
theorem pair_TM2048_2_10 : pairTest .TM2048 2 10 = true := by decide +kernel
theorem pair_TM2048_3_10 : pairTest .TM2048 3 10 = true := by decide +kernel
theorem pair_TM2048_4_10 : pairTest .TM2048 4 10 = true := by decide +kernel
theorem pair_TM2048_5_10 : pairTest .TM2048 5 10 = true := by decide +kernel
theorem pair_TM2048_6_10 : pairTest .TM2048 6 10 = true := by decide +kernel
theorem pair_TM2048_7_10 : pairTest .TM2048 7 10 = true := by decide +kernel
theorem pair_TM2048_8_10 : pairTest .TM2048 8 10 = true := by decide +kernel
theorem pair_TM2048_9_10 : pairTest .TM2048 9 10 = true := by decide +kernel
theorem pair_TM2048_10_10 : pairTest .TM2048 10 10 = true := by decide +kernel
theorem pair_TM2048_0_11 : pairTest .TM2048 0 11 = true := by decide +kernel
theorem pair_TM2048_1_11 : pairTest .TM2048 1 11 = true := by decide +kernel

end LdpcCode
end Sia
