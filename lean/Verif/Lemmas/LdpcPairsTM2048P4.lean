import Verif.Lemmas.LdpcPairsTM2048P3

/-! Kernel evaluations of `LdpcCode.pairTest` (tools/gen_ldpc_pairs.py). -/
namespace Sia
namespace LdpcCode

theorem pair_TM2048_11_13 : pairTest .TM2048 11 13 = true := by decide +kernel
theorem pair_TM2048_12_13 : pairTest .TM2048 12 13 = true := by decide +kernel
theorem pair_TM2048_13_13 : pairTest .TM2048 13 13 = true := by decide +kernel
theorem pair_TM2048_0_14 : pairTest .TM2048 0 14 = true := by decide +kernel
theorem pair_TM2048_1_14 : pairTest .TM2048 1 14 = true := by decide +kernel
theorem pair_TM2048_2_14 : pairTest .TM2048 2 14 = true := by decide +kernel
theorem pair_TM2048_3_14 : pairTest .TM2048 3 14 = true := by decide +kernel
theorem pair_TM2048_4_14 : pairTest .TM2048 4 14 = true := by decide +kernel
theorem pair_TM2048_5_14 : pairTest .TM2048 5 14 = true := by decide +kernel
theorem pair_TM2048_6_14 : pairTest .TM2048 6 14 = true := by decide +kernel
theorem pair_TM2048_7_14 : pairTest .TM2048 7 14 = true := by decide +kernel
theorem pair_TM2048_8_14 : pairTest .TM2048 8 14 = true := by decide +kernel
theorem pair_TM2048_9_14 : pairTest .TM2048 9 14 = true := by decide +kernel
theorem pair_TM2048_10_14 : pairTest .TM2048 10 14 = true := by decide +kernel
theorem pair_TM2048_11_14 : pairTest .TM2048 11 14 = true := by decide +kernel
theorem pair_TM2048_12_14 : pairTest .TM2048 12 14 = true := by decide +kernel
theorem pair_TM2048_13_14 : pairTest .TM2048 13 14 = true := by decide +kernel
theorem pair_TM2048_14_14 : pairTest .TM2048 14 14 = true := by decide +kernel
theorem pair_TM2048_0_15 : pairTest .TM2048 0 15 = true := by decide +kernel
theorem pair_TM2048_1_15 : pairTest .TM2048 1 15 = true := by decide +kernel
theorem pair_TM2048_2_15 : pairTest .TM2048 2 15 = true := by decide +kernel
theorem pair_TM2048_3_15 : pairTest .TM2048 3 15 = true := by decide +kernel
theorem pair_TM2048_4_15 : pairTest .TM2048 4 15 = true := by decide +kernel
theorem pair_TM2048_5_15 : pairTest .TM2048 5 15 = true := by decide +kernel
theorem pair_TM2048_6_15 : pairTest .TM2048 6 15 = true := by decide +kernel
theorem pair_TM2048_7_15 : pairTest .TM2048 7 15 = true := by decide +kernel
theorem pair_TM2048_8_15 : pairTest .TM2048 8 15 = true := by decide +kernel
theorem pair_TM2048_9_15 : pairTest .TM2048 9 15 = true := by decide +kernel
theorem pair_TM2048_10_15 : pairTest .TM2048 10 15 = true := by decide +kernel
theorem pair_TM2048_11_15 : pairTest .TM2048 11 15 = true := by decide +kernel
theorem pair_TM2048_12_15 : pairTest .TM2048 12 15 = true := by decide +kernel
theorem pair_TM2048_13_15 : pairTest .TM2048 13 15 = true := by decide +kernel
theorem pair_TM2048_14_15 : pairTest .TM2048 14 15 = true := by decide +kernel
theorem pair_TM2048_15_15 : pairTest .TM2048 15 15 = true := by decide +kernel

end LdpcCode
end Sia
