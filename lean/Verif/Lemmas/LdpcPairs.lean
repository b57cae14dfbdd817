import Verif.Lemmas.LdpcPairsTM8192P23

/-! The evaluations together (tools/gen_ldpc_pairs.py). -/
namespace Sia
namespace LdpcCode

theorem pairs_TC128 : ∀ b' < 8, ∀ b ≤ b', pairTest .TC128 b b' = true
  | 0, _, 0, _ => pair_TC128_0_0
  | 1, _, 0, _ => pair_TC128_0_1
  | 1, _, 1, _ => pair_TC128_1_1
  | 2, _, 0, _ => pair_TC128_0_2
  | 2, _, 1, _ => pair_TC128_1_2
  | 2, _, 2, _ => pair_TC128_2_2
  | 3, _, 0, _ => pair_TC128_0_3
  | 3, _, 1, _ => pair_TC128_1_3
  | 3, _, 2, _ => pair_TC128_2_3
  | 3, _, 3, _ => pair_TC128_3_3
  | 4, _, 0, _ => pair_TC128_0_4
  | 4, _, 1, _ => pair_TC128_1_4
  | 4, _, 2, _ => pair_TC128_2_4
  | 4, _, 3, _ => pair_TC128_3_4
  | 4, _, 4, _ => pair_TC128_4_4
  | 5, _, 0, _ => pair_TC128_0_5
  | 5, _, 1, _ => pair_TC128_1_5
  | 5, _, 2, _ => pair_TC128_2_5
  | 5, _, 3, _ => pair_TC128_3_5
  | 5, _, 4, _ => pair_TC128_4_5
  | 5, _, 5, _ => pair_TC128_5_5
  | 6, _, 0, _ => pair_TC128_0_6
  | 6, _, 1, _ => pair_TC128_1_6
  | 6, _, 2, _ => pair_TC128_2_6
  | 6, _, 3, _ => pair_TC128_3_6
  | 6, _, 4, _ => pair_TC128_4_6
  | 6, _, 5, _ => pair_TC128_5_6
  | 6, _, 6, _ => pair_TC128_6_6
  | 7, _, 0, _ => pair_TC128_0_7
  | 7, _, 1, _ => pair_TC128_1_7
  | 7, _, 2, _ => pair_TC128_2_7
  | 7, _, 3, _ => pair_TC128_3_7
  | 7, _, 4, _ => pair_TC128_4_7
  | 7, _, 5, _ => pair_TC128_5_7
  | 7, _, 6, _ => pair_TC128_6_7
  | 7, _, 7, _ => pair_TC128_7_7

theorem pairs_TC256 : ∀ b' < 8, ∀ b ≤ b', pairTest .TC256 b b' = true
  | 0, _, 0, _ => pair_TC256_0_0
  | 1, _, 0, _ => pair_TC256_0_1
  | 1, _, 1, _ => pair_TC256_1_1
  | 2, _, 0, _ => pair_TC256_0_2
  | 2, _, 1, _ => pair_TC256_1_2
  | 2, _, 2, _ => pair_TC256_2_2
  | 3, _, 0, _ => pair_TC256_0_3
  | 3, _, 1, _ => pair_TC256_1_3
  | 3, _, 2, _ => pair_TC256_2_3
  | 3, _, 3, _ => pair_TC256_3_3
  | 4, _, 0, _ => pair_TC256_0_4
  | 4, _, 1, _ => pair_TC256_1_4
  | 4, _, 2, _ => pair_TC256_2_4
  | 4, _, 3, _ => pair_TC256_3_4
  | 4, _, 4, _ => pair_TC256_4_4
  | 5, _, 0, _ => pair_TC256_0_5
  | 5, _, 1, _ => pair_TC256_1_5
  | 5, _, 2, _ => pair_TC256_2_5
  | 5, _, 3, _ => pair_TC256_3_5
  | 5, _, 4, _ => pair_TC256_4_5
  | 5, _, 5, _ => pair_TC256_5_5
  | 6, _, 0, _ => pair_TC256_0_6
  | 6, _, 1, _ => pair_TC256_1_6
  | 6, _, 2, _ => pair_TC256_2_6
  | 6, _, 3, _ => pair_TC256_3_6
  | 6, _, 4, _ => pair_TC256_4_6
  | 6, _, 5, _ => pair_TC256_5_6
  | 6, _, 6, _ => pair_TC256_6_6
  | 7, _, 0, _ => pair_TC256_0_7
  | 7, _, 1, _ => pair_TC256_1_7
  | 7, _, 2, _ => pair_TC256_2_7
  | 7, _, 3, _ => pair_TC256_3_7
  | 7, _, 4, _ => pair_TC256_4_7
  | 7, _, 5, _ => pair_TC256_5_7
  | 7, _, 6, _ => pair_TC256_6_7
  | 7, _, 7, _ => pair_TC256_7_7

theorem pairs_TC512 : ∀ b' < 8, ∀ b ≤ b', pairTest .TC512 b b' = true
  | 0, _, 0, _ => pair_TC512_0_0
  | 1, _, 0, _ => pair_TC512_0_1
  | 1, _, 1, _ => pair_TC512_1_1
  | 2, _, 0, _ => pair_TC512_0_2
  | 2, _, 1, _ => pair_TC512_1_2
  | 2, _, 2, _ => pair_TC512_2_2
  | 3, _, 0, _ => pair_TC512_0_3
  | 3, _, 1, _ => pair_TC512_1_3
  | 3, _, 2, _ => pair_TC512_2_3
  | 3, _, 3, _ => pair_TC512_3_3
  | 4, _, 0, _ => pair_TC512_0_4
  | 4, _, 1, _ => pair_TC512_1_4
  | 4, _, 2, _ => pair_TC512_2_4
  | 4, _, 3, _ => pair_TC512_3_4
  | 4, _, 4, _ => pair_TC512_4_4
  | 5, _, 0, _ => pair_TC512_0_5
  | 5, _, 1, _ => pair_TC512_1_5
  | 5, _, 2, _ => pair_TC512_2_5
  | 5, _, 3, _ => pair_TC512_3_5
  | 5, _, 4, _ => pair_TC512_4_5
  | 5, _, 5, _ => pair_TC512_5_5
  | 6, _, 0, _ => pair_TC512_0_6
  | 6, _, 1, _ => pair_TC512_1_6
  | 6, _, 2, _ => pair_TC512_2_6
  | 6, _, 3, _ => pair_TC512_3_6
  | 6, _, 4, _ => pair_TC512_4_6
  | 6, _, 5, _ => pair_TC512_5_6
  | 6, _, 6, _ => pair_TC512_6_6
  | 7, _, 0, _ => pair_TC512_0_7
  | 7, _, 1, _ => pair_TC512_1_7
  | 7, _, 2, _ => pair_TC512_2_7
  | 7, _, 3, _ => pair_TC512_3_7
  | 7, _, 4, _ => pair_TC512_4_7
  | 7, _, 5, _ => pair_TC512_5_7
  | 7, _, 6, _ => pair_TC512_6_7
  | 7, _, 7, _ => pair_TC512_7_7

theorem pairs_TM2048 : ∀ b' < 16, ∀ b ≤ b', pairTest .TM2048 b b' = true
  | 0, _, 0, _ => pair_TM2048_0_0
  | 1, _, 0, _ => pair_TM2048_0_1
  | 1, _, 1, _ => pair_TM2048_1_1
  | 2, _, 0, _ => pair_TM2048_0_2
  | 2, _, 1, _ => pair_TM2048_1_2
  | 2, _, 2, _ => pair_TM2048_2_2
  | 3, _, 0, _ => pair_TM2048_0_3
  | 3, _, 1, _ => pair_TM2048_1_3
  | 3, _, 2, _ => pair_TM2048_2_3
  | 3, _, 3, _ => pair_TM2048_3_3
  | 4, _, 0, _ => pair_TM2048_0_4
  | 4, _, 1, _ => pair_TM2048_1_4
  | 4, _, 2, _ => pair_TM2048_2_4
  | 4, _, 3, _ => pair_TM2048_3_4
  | 4, _, 4, _ => pair_TM2048_4_4
  | 5, _, 0, _ => pair_TM2048_0_5
  | 5, _, 1, _ => pair_TM2048_1_5
  | 5, _, 2, _ => pair_TM2048_2_5
  | 5, _, 3, _ => pair_TM2048_3_5
  | 5, _, 4, _ => pair_TM2048_4_5
  | 5, _, 5, _ => pair_TM2048_5_5
  | 6, _, 0, _ => pair_TM2048_0_6
  | 6, _, 1, _ => pair_TM2048_1_6
  | 6, _, 2, _ => pair_TM2048_2_6
  | 6, _, 3, _ => pair_TM2048_3_6
  | 6, _, 4, _ => pair_TM2048_4_6
  | 6, _, 5, _ => pair_TM2048_5_6
  | 6, _, 6, _ => pair_TM2048_6_6
  | 7, _, 0, _ => pair_TM2048_0_7
  | 7, _, 1, _ => pair_TM2048_1_7
  | 7, _, 2, _ => pair_TM2048_2_7
  | 7, _, 3, _ => pair_TM2048_3_7
  | 7, _, 4, _ => pair_TM2048_4_7
  | 7, _, 5, _ => pair_TM2048_5_7
  | 7, _, 6, _ => pair_TM2048_6_7
  | 7, _, 7, _ => pair_TM2048_7_7
  | 8, _, 0, _ => pair_TM2048_0_8
  | 8, _, 1, _ => pair_TM2048_1_8
  | 8, _, 2, _ => pair_TM2048_2_8
  | 8, _, 3, _ => pair_TM2048_3_8
  | 8, _, 4, _ => pair_TM2048_4_8
  | 8, _, 5, _ => pair_TM2048_5_8
  | 8, _, 6, _ => pair_TM2048_6_8
  | 8, _, 7, _ => pair_TM2048_7_8
  | 8, _, 8, _ => pair_TM2048_8_8
  | 9, _, 0, _ => pair_TM2048_0_9
  | 9, _, 1, _ => pair_TM2048_1_9
  | 9, _, 2, _ => pair_TM2048_2_9
  | 9, _, 3, _ => pair_TM2048_3_9
  | 9, _, 4, _ => pair_TM2048_4_9
  | 9, _, 5, _ => pair_TM2048_5_9
  | 9, _, 6, _ => pair_TM2048_6_9
  | 9, _, 7, _ => pair_TM2048_7_9
  | 9, _, 8, _ => pair_TM2048_8_9
  | 9, _, 9, _ => pair_TM2048_9_9
  | 10, _, 0, _ => pair_TM2048_0_10
  | 10, _, 1, _ => pair_TM2048_1_10
  | 10, _, 2, _ => pair_TM2048_2_10
  | 10, _, 3, _ => pair_TM2048_3_10
  | 10, _, 4, _ => pair_TM2048_4_10
  | 10, _, 5, _ => pair_TM2048_5_10
  | 10, _, 6, _ => pair_TM2048_6_10
  | 10, _, 7, _ => pair_TM2048_7_10
  | 10, _, 8, _ => pair_TM2048_8_10
  | 10, _, 9, _ => pair_TM2048_9_10
  | 10, _, 10, _ => pair_TM2048_10_10
  | 11, _, 0, _ => pair_TM2048_0_11
  | 11, _, 1, _ => pair_TM2048_1_11
  | 11, _, 2, _ => pair_TM2048_2_11
  | 11, _, 3, _ => pair_TM2048_3_11
  | 11, _, 4, _ => pair_TM2048_4_11
  | 11, _, 5, _ => pair_TM2048_5_11
  | 11, _, 6, _ => pair_TM2048_6_11
  | 11, _, 7, _ => pair_TM2048_7_11
  | 11, _, 8, _ => pair_TM2048_8_11
  | 11, _, 9, _ => pair_TM2048_9_11
  | 11, _, 10, _ => pair_TM2048_10_11
  | 11, _, 11, _ => pair_TM2048_11_11
  | 12, _, 0, _ => pair_TM2048_0_12
  | 12, _, 1, _ => pair_TM2048_1_12
  | 12, _, 2, _ => pair_TM2048_2_12
  | 12, _, 3, _ => pair_TM2048_3_12
  | 12, _, 4, _ => pair_TM2048_4_12
  | 12, _, 5, _ => pair_TM2048_5_12
  | 12, _, 6, _ => pair_TM2048_6_12
  | 12, _, 7, _ => pair_TM2048_7_12
  | 12, _, 8, _ => pair_TM2048_8_12
  | 12, _, 9, _ => pair_TM2048_9_12
  | 12, _, 10, _ => pair_TM2048_10_12
  | 12, _, 11, _ => pair_TM2048_11_12
  | 12, _, 12, _ => pair_TM2048_12_12
  | 13, _, 0, _ => pair_TM2048_0_13
  | 13, _, 1, _ => pair_TM2048_1_13
  | 13, _, 2, _ => pair_TM2048_2_13
  | 13, _, 3, _ => pair_TM2048_3_13
  | 13, _, 4, _ => pair_TM2048_4_13
  | 13, _, 5, _ => pair_TM2048_5_13
  | 13, _, 6, _ => pair_TM2048_6_13
  | 13, _, 7, _ => pair_TM2048_7_13
  | 13, _, 8, _ => pair_TM2048_8_13
  | 13, _, 9, _ => pair_TM2048_9_13
  | 13, _, 10, _ => pair_TM2048_10_13
  | 13, _, 11, _ => pair_TM2048_11_13
  | 13, _, 12, _ => pair_TM2048_12_13
  | 13, _, 13, _ => pair_TM2048_13_13
  | 14, _, 0, _ => pair_TM2048_0_14
  | 14, _, 1, _ => pair_TM2048_1_14
  | 14, _, 2, _ => pair_TM2048_2_14
  | 14, _, 3, _ => pair_TM2048_3_14
  | 14, _, 4, _ => pair_TM2048_4_14
  | 14, _, 5, _ => pair_TM2048_5_14
  | 14, _, 6, _ => pair_TM2048_6_14
  | 14, _, 7, _ => pair_TM2048_7_14
  | 14, _, 8, _ => pair_TM2048_8_14
  | 14, _, 9, _ => pair_TM2048_9_14
  | 14, _, 10, _ => pair_TM2048_10_14
  | 14, _, 11, _ => pair_TM2048_11_14
  | 14, _, 12, _ => pair_TM2048_12_14
  | 14, _, 13, _ => pair_TM2048_13_14
  | 14, _, 14, _ => pair_TM2048_14_14
  | 15, _, 0, _ => pair_TM2048_0_15
  | 15, _, 1, _ => pair_TM2048_1_15
  | 15, _, 2, _ => pair_TM2048_2_15
  | 15, _, 3, _ => pair_TM2048_3_15
  | 15, _, 4, _ => pair_TM2048_4_15
  | 15, _, 5, _ => pair_TM2048_5_15
  | 15, _, 6, _ => pair_TM2048_6_15
  | 15, _, 7, _ => pair_TM2048_7_15
  | 15, _, 8, _ => pair_TM2048_8_15
  | 15, _, 9, _ => pair_TM2048_9_15
  | 15, _, 10, _ => pair_TM2048_10_15
  | 15, _, 11, _ => pair_TM2048_11_15
  | 15, _, 12, _ => pair_TM2048_12_15
  | 15, _, 13, _ => pair_TM2048_13_15
  | 15, _, 14, _ => pair_TM2048_14_15
  | 15, _, 15, _ => pair_TM2048_15_15
  | _ + 16, h, _, _ => absurd h (by omega)

theorem pairs_TM8192 : ∀ b' < 16, ∀ b ≤ b', pairTest .TM8192 b b' = true
  | 0, _, 0, _ => pair_TM8192_0_0
  | 1, _, 0, _ => pair_TM8192_0_1
  | 1, _, 1, _ => pair_TM8192_1_1
  | 2, _, 0, _ => pair_TM8192_0_2
  | 2, _, 1, _ => pair_TM8192_1_2
  | 2, _, 2, _ => pair_TM8192_2_2
  | 3, _, 0, _ => pair_TM8192_0_3
  | 3, _, 1, _ => pair_TM8192_1_3
  | 3, _, 2, _ => pair_TM8192_2_3
  | 3, _, 3, _ => pair_TM8192_3_3
  | 4, _, 0, _ => pair_TM8192_0_4
  | 4, _, 1, _ => pair_TM8192_1_4
  | 4, _, 2, _ => pair_TM8192_2_4
  | 4, _, 3, _ => pair_TM8192_3_4
  | 4, _, 4, _ => pair_TM8192_4_4
  | 5, _, 0, _ => pair_TM8192_0_5
  | 5, _, 1, _ => pair_TM8192_1_5
  | 5, _, 2, _ => pair_TM8192_2_5
  | 5, _, 3, _ => pair_TM8192_3_5
  | 5, _, 4, _ => pair_TM8192_4_5
  | 5, _, 5, _ => pair_TM8192_5_5
  | 6, _, 0, _ => pair_TM8192_0_6
  | 6, _, 1, _ => pair_TM8192_1_6
  | 6, _, 2, _ => pair_TM8192_2_6
  | 6, _, 3, _ => pair_TM8192_3_6
  | 6, _, 4, _ => pair_TM8192_4_6
  | 6, _, 5, _ => pair_TM8192_5_6
  | 6, _, 6, _ => pair_TM8192_6_6
  | 7, _, 0, _ => pair_TM8192_0_7
  | 7, _, 1, _ => pair_TM8192_1_7
  | 7, _, 2, _ => pair_TM8192_2_7
  | 7, _, 3, _ => pair_TM8192_3_7
  | 7, _, 4, _ => pair_TM8192_4_7
  | 7, _, 5, _ => pair_TM8192_5_7
  | 7, _, 6, _ => pair_TM8192_6_7
  | 7, _, 7, _ => pair_TM8192_7_7
  | 8, _, 0, _ => pair_TM8192_0_8
  | 8, _, 1, _ => pair_TM8192_1_8
  | 8, _, 2, _ => pair_TM8192_2_8
  | 8, _, 3, _ => pair_TM8192_3_8
  | 8, _, 4, _ => pair_TM8192_4_8
  | 8, _, 5, _ => pair_TM8192_5_8
  | 8, _, 6, _ => pair_TM8192_6_8
  | 8, _, 7, _ => pair_TM8192_7_8
  | 8, _, 8, _ => pair_TM8192_8_8
  | 9, _, 0, _ => pair_TM8192_0_9
  | 9, _, 1, _ => pair_TM8192_1_9
  | 9, _, 2, _ => pair_TM8192_2_9
  | 9, _, 3, _ => pair_TM8192_3_9
  | 9, _, 4, _ => pair_TM8192_4_9
  | 9, _, 5, _ => pair_TM8192_5_9
  | 9, _, 6, _ => pair_TM8192_6_9
  | 9, _, 7, _ => pair_TM8192_7_9
  | 9, _, 8, _ => pair_TM8192_8_9
  | 9, _, 9, _ => pair_TM8192_9_9
  | 10, _, 0, _ => pair_TM8192_0_10
  | 10, _, 1, _ => pair_TM8192_1_10
  | 10, _, 2, _ => pair_TM8192_2_10
  | 10, _, 3, _ => pair_TM8192_3_10
  | 10, _, 4, _ => pair_TM8192_4_10
  | 10, _, 5, _ => pair_TM8192_5_10
  | 10, _, 6, _ => pair_TM8192_6_10
  | 10, _, 7, _ => pair_TM8192_7_10
  | 10, _, 8, _ => pair_TM8192_8_10
  | 10, _, 9, _ => pair_TM8192_9_10
  | 10, _, 10, _ => pair_TM8192_10_10
  | 11, _, 0, _ => pair_TM8192_0_11
  | 11, _, 1, _ => pair_TM8192_1_11
  | 11, _, 2, _ => pair_TM8192_2_11
  | 11, _, 3, _ => pair_TM8192_3_11
  | 11, _, 4, _ => pair_TM8192_4_11
  | 11, _, 5, _ => pair_TM8192_5_11
  | 11, _, 6, _ => pair_TM8192_6_11
  | 11, _, 7, _ => pair_TM8192_7_11
  | 11, _, 8, _ => pair_TM8192_8_11
  | 11, _, 9, _ => pair_TM8192_9_11
  | 11, _, 10, _ => pair_TM8192_10_11
  | 11, _, 11, _ => pair_TM8192_11_11
  | 12, _, 0, _ => pair_TM8192_0_12
  | 12, _, 1, _ => pair_TM8192_1_12
  | 12, _, 2, _ => pair_TM8192_2_12
  | 12, _, 3, _ => pair_TM8192_3_12
  | 12, _, 4, _ => pair_TM8192_4_12
  | 12, _, 5, _ => pair_TM8192_5_12
  | 12, _, 6, _ => pair_TM8192_6_12
  | 12, _, 7, _ => pair_TM8192_7_12
  | 12, _, 8, _ => pair_TM8192_8_12
  | 12, _, 9, _ => pair_TM8192_9_12
  | 12, _, 10, _ => pair_TM8192_10_12
  | 12, _, 11, _ => pair_TM8192_11_12
  | 12, _, 12, _ => pair_TM8192_12_12
  | 13, _, 0, _ => pair_TM8192_0_13
  | 13, _, 1, _ => pair_TM8192_1_13
  | 13, _, 2, _ => pair_TM8192_2_13
  | 13, _, 3, _ => pair_TM8192_3_13
  | 13, _, 4, _ => pair_TM8192_4_13
  | 13, _, 5, _ => pair_TM8192_5_13
  | 13, _, 6, _ => pair_TM8192_6_13
  | 13, _, 7, _ => pair_TM8192_7_13
  | 13, _, 8, _ => pair_TM8192_8_13
  | 13, _, 9, _ => pair_TM8192_9_13
  | 13, _, 10, _ => pair_TM8192_10_13
  | 13, _, 11, _ => pair_TM8192_11_13
  | 13, _, 12, _ => pair_TM8192_12_13
  | 13, _, 13, _ => pair_TM8192_13_13
  | 14, _, 0, _ => pair_TM8192_0_14
  | 14, _, 1, _ => pair_TM8192_1_14
  | 14, _, 2, _ => pair_TM8192_2_14
  | 14, _, 3, _ => pair_TM8192_3_14
  | 14, _, 4, _ => pair_TM8192_4_14
  | 14, _, 5, _ => pair_TM8192_5_14
  | 14, _, 6, _ => pair_TM8192_6_14
  | 14, _, 7, _ => pair_TM8192_7_14
  | 14, _, 8, _ => pair_TM8192_8_14
  | 14, _, 9, _ => pair_TM8192_9_14
  | 14, _, 10, _ => pair_TM8192_10_14
  | 14, _, 11, _ => pair_TM8192_11_14
  | 14, _, 12, _ => pair_TM8192_12_14
  | 14, _, 13, _ => pair_TM8192_13_14
  | 14, _, 14, _ => pair_TM8192_14_14
  | 15, _, 0, _ => pair_TM8192_0_15
  | 15, _, 1, _ => pair_TM8192_1_15
  | 15, _, 2, _ => pair_TM8192_2_15
  | 15, _, 3, _ => pair_TM8192_3_15
  | 15, _, 4, _ => pair_TM8192_4_15
  | 15, _, 5, _ => pair_TM8192_5_15
  | 15, _, 6, _ => pair_TM8192_6_15
  | 15, _, 7, _ => pair_TM8192_7_15
  | 15, _, 8, _ => pair_TM8192_8_15
  | 15, _, 9, _ => pair_TM8192_9_15
  | 15, _, 10, _ => pair_TM8192_10_15
  | 15, _, 11, _ => pair_TM8192_11_15
  | 15, _, 12, _ => pair_TM8192_12_15
  | 15, _, 13, _ => pair_TM8192_13_15
  | 15, _, 14, _ => pair_TM8192_14_15
  | 15, _, 15, _ => pair_TM8192_15_15
  | _ + 16, h, _, _ => absurd h (by omega)

end LdpcCode
end Sia
