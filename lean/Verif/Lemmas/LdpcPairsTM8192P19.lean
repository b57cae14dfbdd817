import Verif.Lemmas.LdpcPairsTM8192P18

/-! Kernel evaluations of `LdpcCode.pairTest` (tools/gen_ldpc_pairs.py). -/
namespace Sia
namespace LdpcCode

theorem pair_TM8192_3_14 : pairTest .TM8192 3 14 = true := by decide +kernel
theorem pair_TM8192_4_14 : pairTest .TM8192 4 14 = true := by decide +kernel
theorem pair_TM8192_5_14 : pairTest .TM8192 5 14 = true := by decide +kernel
theorem pair_TM8192_6_14 : pairTest .TM8192 6 14 = true := by decide +kernel
theorem pair_TM8192_7_14 : pairTest .TM8192 7 14 = true := by decide +kernel
theorem pair_TM8192_8_14 : pairTest .TM8192 8 14 = true := by decide +kernel

end LdpcCode
end Sia
