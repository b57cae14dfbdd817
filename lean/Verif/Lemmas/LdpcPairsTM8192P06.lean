import Verif.Lemmas.LdpcPairsTM8192P05

/-! Kernel evaluations of `LdpcCode.pairTest` (tools/gen_ldpc_pairs.py). -/
namespace Sia
namespace LdpcCode

theorem pair_TM8192_2_7 : pairTest .TM8192 2 7 = true := by decide +kernel
theorem pair_TM8192_3_7 : pairTest .TM8192 3 7 = true := by decide +kernel
theorem pair_TM8192_4_7 : pairTest .TM8192 4 7 = true := by decide +kernel
theorem pair_TM8192_5_7 : pairTest .TM8192 5 7 = true := by decide +kernel
theorem pair_TM8192_6_7 : pairTest .TM8192 6 7 = true := by decide +kernel
theorem pair_TM8192_7_7 : pairTest .TM8192 7 7 = true := by decide +kernel

end LdpcCode
end Sia
