import Verif.Lemmas.LdpcErrors

/-! Kernel evaluations of `LdpcCode.pairTest` (tools/gen_ldpc_pairs.py). -/
namespace Sia
namespace LdpcCode

theorem pair_TC128_0_0 : pairTest .TC128 0 0 = true := by decide +kernel
theorem pair_TC128_0_1 : pairTest .TC128 0 1 = true := by decide +kernel
theorem pair_TC128_1_1 : pairTest .TC128 1 1 = true := by decide +kernel
theorem pair_TC128_0_2 : pairTest .TC128 0 2 = true := by decide +kernel
theorem pair_TC128_1_2 : pairTest .TC128 1 2 = true := by decide +kernel
theorem pair_TC128_2_2 : pairTest .TC128 2 2 = true := by decide +kernel
theorem pair_TC128_0_3 : pairTest .TC128 0 3 = true := by decide +kernel
theorem pair_TC128_1_3 : pairTest .TC128 1 3 = true := by decide +kernel
theorem pair_TC128_2_3 : pairTest .TC128 2 3 = true := by decide +kernel
theorem pair_TC128_3_3 : pairTest .TC128 3 3 = true := by decide +kernel
theorem pair_TC128_0_4 : pairTest .TC128 0 4 = true := by decide +kernel
theorem pair_TC128_1_4 : pairTest .TC128 1 4 = true := by decide +kernel
theorem pair_TC128_2_4 : pairTest .TC128 2 4 = true := by decide +kernel
theorem pair_TC128_3_4 : pairTest .TC128 3 4 = true := by decide +kernel
theorem pair_TC128_4_4 : pairTest .TC128 4 4 = true := by decide +kernel
theorem pair_TC128_0_5 : pairTest .TC128 0 5 = true := by decide +kernel
theorem pair_TC128_1_5 : pairTest .TC128 1 5 = true := by decide +kernel
theorem pair_TC128_2_5 : pairTest .TC128 2 5 = true := by decide +kernel
theorem pair_TC128_3_5 : pairTest .TC128 3 5 = true := by decide +kernel
theorem pair_TC128_4_5 : pairTest .TC128 4 5 = true := by decide +kernel
theorem pair_TC128_5_5 : pairTest .TC128 5 5 = true := by decide +kernel
theorem pair_TC128_0_6 : pairTest .TC128 0 6 = true := by decide +kernel
theorem pair_TC128_1_6 : pairTest .TC128 1 6 = true := by decide +kernel
theorem pair_TC128_2_6 : pairTest .TC128 2 6 = true := by decide +kernel
theorem pair_TC128_3_6 : pairTest .TC128 3 6 = true := by decide +kernel
theorem pair_TC128_4_6 : pairTest .TC128 4 6 = true := by decide +kernel
theorem pair_TC128_5_6 : pairTest .TC128 5 6 = true := by decide +kernel
theorem pair_TC128_6_6 : pairTest .TC128 6 6 = true := by decide +kernel
theorem pair_TC128_0_7 : pairTest .TC128 0 7 = true := by decide +kernel
theorem pair_TC128_1_7 : pairTest .TC128 1 7 = true := by decide +kernel
theorem pair_TC128_2_7 : pairTest .TC128 2 7 = true := by decide +kernel
theorem pair_TC128_3_7 : pairTest .TC128 3 7 = true := by decide +kernel
theorem pair_TC128_4_7 : pairTest .TC128 4 7 = true := by decide +kernel
theorem pair_TC128_5_7 : pairTest .TC128 5 7 = true := by decide +kernel
theorem pair_TC128_6_7 : pairTest .TC128 6 7 = true := by decide +kernel
theorem pair_TC128_7_7 : pairTest .TC128 7 7 = true := by decide +kernel
theorem pair_TC256_0_0 : pairTest .TC256 0 0 = true := by decide +kernel
theorem pair_TC256_0_1 : pairTest .TC256 0 1 = true := by decide +kernel
theorem pair_TC256_1_1 : pairTest .TC256 1 1 = true := by decide +kernel
theorem pair_TC256_0_2 : pairTest .TC256 0 2 = true := by decide +kernel
theorem pair_TC256_1_2 : pairTest .TC256 1 2 = true := by decide +kernel
theorem pair_TC256_2_2 : pairTest .TC256 2 2 = true := by decide +kernel
theorem pair_TC256_0_3 : pairTest .TC256 0 3 = true := by decide +kernel
theorem pair_TC256_1_3 : pairTest .TC256 1 3 = true := by decide +kernel
theorem pair_TC256_2_3 : pairTest .TC256 2 3 = true := by decide +kernel
theorem pair_TC256_3_3 : pairTest .TC256 3 3 = true := by decide +kernel
theorem pair_TC256_0_4 : pairTest .TC256 0 4 = true := by decide +kernel
theorem pair_TC256_1_4 : pairTest .TC256 1 4 = true := by decide +kernel
theorem pair_TC256_2_4 : pairTest .TC256 2 4 = true := by decide +kernel
theorem pair_TC256_3_4 : pairTest .TC256 3 4 = true := by decide +kernel
theorem pair_TC256_4_4 : pairTest .TC256 4 4 = true := by decide +kernel
theorem pair_TC256_0_5 : pairTest .TC256 0 5 = true := by decide +kernel
theorem pair_TC256_1_5 : pairTest .TC256 1 5 = true := by decide +kernel
theorem pair_TC256_2_5 : pairTest .TC256 2 5 = true := by decide +kernel
theorem pair_TC256_3_5 : pairTest .TC256 3 5 = true := by decide +kernel
theorem pair_TC256_4_5 : pairTest .TC256 4 5 = true := by decide +kernel
theorem pair_TC256_5_5 : pairTest .TC256 5 5 = true := by decide +kernel
theorem pair_TC256_0_6 : pairTest .TC256 0 6 = true := by decide +kernel
theorem pair_TC256_1_6 : pairTest .TC256 1 6 = true := by decide +kernel
theorem pair_TC256_2_6 : pairTest .TC256 2 6 = true := by decide +kernel
theorem pair_TC256_3_6 : pairTest .TC256 3 6 = true := by decide +kernel
theorem pair_TC256_4_6 : pairTest .TC256 4 6 = true := by decide +kernel
theorem pair_TC256_5_6 : pairTest .TC256 5 6 = true := by decide +kernel
theorem pair_TC256_6_6 : pairTest .TC256 6 6 = true := by decide +kernel
theorem pair_TC256_0_7 : pairTest .TC256 0 7 = true := by decide +kernel
theorem pair_TC256_1_7 : pairTest .TC256 1 7 = true := by decide +kernel
theorem pair_TC256_2_7 : pairTest .TC256 2 7 = true := by decide +kernel
theorem pair_TC256_3_7 : pairTest .TC256 3 7 = true := by decide +kernel
theorem pair_TC256_4_7 : pairTest .TC256 4 7 = true := by decide +kernel
theorem pair_TC256_5_7 : pairTest .TC256 5 7 = true := by decide +kernel
theorem pair_TC256_6_7 : pairTest .TC256 6 7 = true := by decide +kernel
theorem pair_TC256_7_7 : pairTest .TC256 7 7 = true := by decide +kernel
theorem pair_TC512_0_0 : pairTest .TC512 0 0 = true := by decide +kernel
theorem pair_TC512_0_1 : pairTest .TC512 0 1 = true := by decide +kernel
theorem pair_TC512_1_1 : pairTest .TC512 1 1 = true := by decide +kernel
theorem pair_TC512_0_2 : pairTest .TC512 0 2 = true := by decide +kernel
theorem pair_TC512_1_2 : pairTest .TC512 1 2 = true := by decide +kernel
theorem pair_TC512_2_2 : pairTest .TC512 2 2 = true := by decide +kernel
theorem pair_TC512_0_3 : pairTest .TC512 0 3 = true := by decide +kernel
theorem pair_TC512_1_3 : pairTest .TC512 1 3 = true := by decide +kernel
theorem pair_TC512_2_3 : pairTest .TC512 2 3 = true := by decide +kernel
theorem pair_TC512_3_3 : pairTest .TC512 3 3 = true := by decide +kernel
theorem pair_TC512_0_4 : pairTest .TC512 0 4 = true := by decide +kernel
theorem pair_TC512_1_4 : pairTest .TC512 1 4 = true := by decide +kernel
theorem pair_TC512_2_4 : pairTest .TC512 2 4 = true := by decide +kernel
theorem pair_TC512_3_4 : pairTest .TC512 3 4 = true := by decide +kernel
theorem pair_TC512_4_4 : pairTest .TC512 4 4 = true := by decide +kernel
theorem pair_TC512_0_5 : pairTest .TC512 0 5 = true := by decide +kernel
theorem pair_TC512_1_5 : pairTest .TC512 1 5 = true := by decide +kernel
theorem pair_TC512_2_5 : pairTest .TC512 2 5 = true := by decide +kernel
theorem pair_TC512_3_5 : pairTest .TC512 3 5 = true := by decide +kernel
theorem pair_TC512_4_5 : pairTest .TC512 4 5 = true := by decide +kernel
theorem pair_TC512_5_5 : pairTest .TC512 5 5 = true := by decide +kernel
theorem pair_TC512_0_6 : pairTest .TC512 0 6 = true := by decide +kernel
theorem pair_TC512_1_6 : pairTest .TC512 1 6 = true := by decide +kernel
theorem pair_TC512_2_6 : pairTest .TC512 2 6 = true := by decide +kernel
theorem pair_TC512_3_6 : pairTest .TC512 3 6 = true := by decide +kernel
theorem pair_TC512_4_6 : pairTest .TC512 4 6 = true := by decide +kernel
theorem pair_TC512_5_6 : pairTest .TC512 5 6 = true := by decide +kernel
theorem pair_TC512_6_6 : pairTest .TC512 6 6 = true := by decide +kernel
theorem pair_TC512_0_7 : pairTest .TC512 0 7 = true := by decide +kernel
theorem pair_TC512_1_7 : pairTest .TC512 1 7 = true := by decide +kernel
theorem pair_TC512_2_7 : pairTest .TC512 2 7 = true := by decide +kernel
theorem pair_TC512_3_7 : pairTest .TC512 3 7 = true := by decide +kernel
theorem pair_TC512_4_7 : pairTest .TC512 4 7 = true := by decide +kernel
theorem pair_TC512_5_7 : pairTest .TC512 5 7 = true := by decide +kernel
theorem pair_TC512_6_7 : pairTest .TC512 6 7 = true := by decide +kernel
theorem pair_TC512_7_7 : pairTest .TC512 7 7 = true := by decide +kernel

end LdpcCode
end Sia
