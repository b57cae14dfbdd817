import Verif.Lemmas.LdpcPairsTM2048P2

/-! Kernel evaluations of `LdpcCode.pairTest` (tools/gen_ldpc_pairs.py). -/
namespace Sia
namespace LdpcCode

theorem pair_TM2048_2_11 : pairTest .TM2048 2 11 = true := by decide +kernel
theorem pair_TM2048_3_11 : pairTest .TM2048 3 11 = true := by decide +kernel
theorem pair_TM2048_4_11 : pairTest .TM2048 4 11 = true := by decide +kernel
theorem pair_TM2048_5_11 : pairTest .TM2048 5 11 = true := by decide +kernel
theorem pair_TM2048_6_11 : pairTest .TM2048 6 11 = true := by decide +kernel
theorem pair_TM2048_7_11 : pairTest .TM2048 7 11 = true := by decide +kernel
theorem pair_TM2048_8_11 : pairTest .TM2048 8 11 = true := by decide +kernel
theorem pair_TM2048_9_11 : pairTest .TM2048 9 11 = true := by decide +kernel
theorem pair_TM2048_10_11 : pairTest .TM2048 10 11 = true := by decide +kernel
theorem pair_TM2048_11_11 : pairTest .TM2048 11 11 = true := by decide +kernel
theorem pair_TM2048_0_12 : pairTest .TM2048 0 12 = true := by decide +kernel
theorem pair_TM2048_1_12 : pairTest .TM2048 1 12 = true := by decide +kernel
theorem pair_TM2048_2_12 : pairTest .TM2048 2 12 = true := by decide +kernel
theorem pair_TM2048_3_12 : pairTest .TM2048 3 12 = true := by decide +kernel
theorem pair_TM2048_4_12 : pairTest .TM2048 4 12 = true := by decide +kernel
theorem pair_TM2048_5_12 : pairTest .TM2048 5 12 = true := by decide +kernel
theorem pair_TM2048_6_12 : pairTest .TM2048 6 12 = true := by decide +kernel
theorem pair_TM2048_7_12 : pairTest .TM2048 7 12 = true := by decide +kernel
theorem pair_TM2048_8_12 : pairTest .TM2048 8 12 = true := by decide +kernel
theorem pair_TM2048_9_12 : pairTest .TM2048 9 12 = true := by decide +kernel
theorem pair_TM2048_10_12 : pairTest .TM2048 10 12 = true := by decide +kernel
theorem pair_TM2048_11_12 : pairTest .TM2048 11 12 = true := by decide +kernel
theorem pair_TM2048_12_12 : pairTest .TM2048 12 12 = true := by decide +kernel
theorem pair_TM2048_0_13 : pairTest .TM2048 0 13 = true := by decide +kernel
theorem pair_TM2048_1_13 : pairTest .TM2048 1 13 = true := by decide +kernel
theorem pair_TM2048_2_13 : pairTest .TM2048 2 13 = true := by decide +kernel
theorem pair_TM2048_3_13 : pairTest .TM2048 3 13 = true := by decide +kernel
theorem pair_TM2048_4_13 : pairTest .TM2048 4 13 = true := by decide +kernel
theorem pair_TM2048_5_13 : pairTest .TM2048 5 13 = true := by decide +kernel
theorem pair_TM2048_6_13 : pairTest .TM2048 6 13 = true := by decide +kernel
theorem pair_TM2048_7_13 : pairTest .TM2048 7 13 = true := by decide +kernel
theorem pair_TM2048_8_13 : pairTest .TM2048 8 13 = true := by decide +kernel
theorem pair_TM2048_9_13 : pairTest .TM2048 9 13 = true := by decide +kernel
theorem pair_TM2048_10_13 : pairTest .TM2048 10 13 = true := by decide +kernel

end LdpcCode
end Sia
