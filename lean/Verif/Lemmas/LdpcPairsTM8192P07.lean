import Verif.Lemmas.LdpcPairsTM8192P06

/-! Kernel evaluations of `LdpcCode.pairTest` (tools/gen_ldpc_pairs.py). -/
namespace Sia
namespace LdpcCode

theorem pair_TM8192_0_8 : pairTest .TM8192 0 8 = true := by decide +kernel
theorem pair_TM8192_1_8 : pairTest .TM8192 1 8 = true := by decide +kernel
theorem pair_TM8192_2_8 : pairTest .TM8192 2 8 = true := by decide +kernel
theorem pair_TM8192_3_8 : pairTest .TM8192 3 8 = true := by decide +kernel
theorem pair_TM8192_4_8 : pairTest .TM8192 4 8 = true := by decide +kernel
theorem pair_TM8192_5_8 : pairTest .TM8192 5 8 = true := by decide +kernel

end LdpcCode
end Sia
