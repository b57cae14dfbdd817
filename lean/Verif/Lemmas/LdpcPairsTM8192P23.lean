import Verif.Lemmas.LdpcPairsTM8192P22

/-! Kernel evaluations of `LdpcCode.pairTest` (tools/gen_ldpc_pairs.py). -/
namespace Sia
namespace LdpcCode

theorem pair_TM8192_12_15 : pairTest .TM8192 12 15 = true := by decide +kernel
theorem pair_TM8192_13_15 : pairTest .TM8192 13 15 = true := by decide +kernel
theorem pair_TM8192_14_15 : pairTest .TM8192 14 15 = true := by decide +kernel
theorem pair_TM8192_15_15 : pairTest .TM8192 15 15 = true := by decide +kernel

end LdpcCode
end Sia
