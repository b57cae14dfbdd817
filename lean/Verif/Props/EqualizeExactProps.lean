import Verif.Props.EqualizeProps

/-! C83: when equalisation in single precision is exact. -/
namespace Sia

set_option maxRecDepth 100000 in
/-- The 256 grey levels as shares of 255 survive the two roundings. -/
theorem level_roundtrip : ∀ m : Nat, m < 256 → rne32 (255 * rne32 ((m : ℚ) / 255)) = m := by decide +kernel

set_option maxRecDepth 100000 in
/-- A share that is `2^-17` steps below a grey level is not rounded up to it. -/
theorem level_below_small : ∀ m : Nat, m < 255 →
    rne32 (255 * rne32 (((m : ℚ) + 1) / 255 - 1 / (255 * 131072))) < m + 1 := by decide +kernel

set_option maxRecDepth 100000 in
/-- The share of `n` in `2^18 ... 2^24` that is closest below a grey level is not rounded up to it. -/
theorem level_below_binary : ∀ k : Nat, k < 7 → ∀ m : Nat, m < 255 →
    rne32 (((2 ^ (18 + k) * (m + 1) - ((2 ^ (18 + k) * (m + 1) - 1) % 255 + 1) : Nat) : ℚ) / (2 ^ (18 + k) : Nat)) < m + 1 := by
  decide +kernel

theorem equalizeLevel_eq (n total : Nat) (hn : n ≤ total) (h1 : 1 ≤ total) (h2 : total ≤ 2 ^ 24)
    (hup : 255 * n / total < 255 → rne32 (255 * rne32 ((n : ℚ) / total)) < ((255 * n / total : Nat) : ℚ) + 1) :
    equalizeLevel n total = UInt8.ofNat (255 * n / total) := by
  have hT : (0 : ℚ) < total := by exact_mod_cast h1
  have e1 : rne32 (n : ℚ) = n := rne32_nat n (hn.trans h2)
  have e2 : rne32 (total : ℚ) = total := rne32_nat total h2
  set m := 255 * n / total with hm
  have hm255 : m ≤ 255 := by
    rw [hm]
    exact Nat.div_le_of_le_mul (by nlinarith)
  have hlow : (m : ℚ) ≤ rne32 (255 * rne32 ((n : ℚ) / total)) := by
    rw [← level_roundtrip m (by omega)]
    refine rne32_mono (mul_le_mul_of_nonneg_left (rne32_mono ?_) (by norm_num))
    rw [div_le_div_iff₀ (by norm_num) hT]
    have : m * total ≤ 255 * n := Nat.div_mul_le_self _ _
    have : ((m * total : Nat) : ℚ) ≤ ((255 * n : Nat) : ℚ) := by exact_mod_cast this
    push_cast at this
    linarith
  have hf : ⌊min 255 (rne32 (255 * rne32 ((n : ℚ) / total)))⌋ = (m : ℤ) := by
    rw [Int.floor_eq_iff]
    have c : (m : ℚ) ≤ 255 := by exact_mod_cast hm255
    refine ⟨?_, ?_⟩
    · push_cast
      exact le_min c hlow
    · push_cast
      rcases Nat.lt_or_ge m 255 with h | h
      · exact lt_of_le_of_lt (min_le_right _ _) (hup h)
      · have : (255 : ℚ) ≤ m := by exact_mod_cast h
        exact lt_of_le_of_lt (min_le_left _ _) (by linarith)
  unfold equalizeLevel
  rw [e1, e2, hf, Int.toNat_natCast]

theorem floor_gap (n total : Nat) (h1 : 1 ≤ total) : 255 * n + 1 ≤ total * (255 * n / total + 1) := by
  have := Nat.lt_mul_div_succ (255 * n) (show 0 < total by omega)
  omega

theorem equalizeLevel_small (n total : Nat) (hn : n ≤ total) (h1 : 1 ≤ total) (h2 : total ≤ 131072) :
    equalizeLevel n total = UInt8.ofNat (255 * n / total) := by
  refine equalizeLevel_eq n total hn h1 (by omega) fun h => ?_
  have hT : (0 : ℚ) < total := by exact_mod_cast h1
  refine lt_of_le_of_lt ?_ (level_below_small _ h)
  refine rne32_mono (mul_le_mul_of_nonneg_left (rne32_mono ?_) (by norm_num))
  have g : ((255 * n + 1 : Nat) : ℚ) ≤ ((total * (255 * n / total + 1) : Nat) : ℚ) := by exact_mod_cast floor_gap n total h1
  generalize 255 * n / total = m at *
  push_cast at g
  have hT2 : (total : ℚ) ≤ 131072 := by exact_mod_cast h2
  rw [div_le_iff₀ hT]
  have : (total : ℚ) / (255 * 131072) ≤ 1 / 255 := by
    rw [div_le_div_iff₀ (by norm_num) (by norm_num)]; linarith
  have e : (((m : ℚ) + 1) / 255 - 1 / (255 * 131072)) * total = total * ((m : ℚ) + 1) / 255 - total / (255 * 131072) := by ring
  rw [e]
  linarith

theorem gap_binary (a b : Nat) (h : 255 * a + 1 ≤ b) : 255 * a ≤ b - ((b - 1) % 255 + 1) := by omega

theorem equalizeLevel_binary (n k : Nat) (hk : k < 7) (hn : n ≤ 2 ^ (18 + k)) :
    equalizeLevel n (2 ^ (18 + k)) = UInt8.ofNat (255 * n / 2 ^ (18 + k)) := by
  have h1 : 1 ≤ 2 ^ (18 + k) := Nat.one_le_two_pow
  have h24 : 2 ^ (18 + k) ≤ 2 ^ 24 := Nat.pow_le_pow_right (by norm_num) (by omega)
  refine equalizeLevel_eq n _ hn h1 h24 fun h => ?_
  have hT : (0 : ℚ) < ((2 ^ (18 + k) : Nat) : ℚ) := by exact_mod_cast h1
  have hg : OnGrid32 ((n : ℚ) / ((2 ^ (18 + k) : Nat) : ℚ)) := by
    refine ⟨n, -(18 + k : Nat), ?_, by omega, ?_⟩
    · rw [abs_of_nonneg (by positivity)]
      exact_mod_cast hn.trans h24
    · rw [zpow_neg, zpow_natCast]
      push_cast
      rw [div_eq_mul_inv]
  rw [rne32_self _ hg]
  refine lt_of_le_of_lt ?_ (level_below_binary k hk _ h)
  refine rne32_mono ?_
  have g := gap_binary n _ (floor_gap n _ h1)
  rw [← mul_div_assoc]
  refine div_le_div_of_nonneg_right ?_ hT.le
  have g' : ((255 * n : Nat) : ℚ) ≤ _ := Nat.cast_le.2 g
  rw [Nat.cast_mul] at g'
  exact g'

/-- C83: for pictures of at most `2^17` samples, and for those whose number of samples is a power of two up to `2^24` (sides 512, 1024,
2048, 4096 among them), equalisation in single precision is exact: each sample becomes the share of the samples that do not exceed
it, times 255, rounded down. -/
theorem equalizeSingle_exact (raw : List UInt8) (h : raw.length ≤ 2 ^ 17 ∨ ∃ k ≤ 24, raw.length = 2 ^ k) (i : Nat) (hi : i < raw.length) :
    ((equalizeSingle raw).getD i 0).toNat = 255 * (raw.countP fun w => decide (w ≤ raw[i])) / raw.length := by
  rw [List.getD_eq_getElem _ _ (by rw [equalizeSingle_length]; exact hi), equalizeSingle_getElem raw i hi]
  have hc : cumulative raw raw[i] ≤ raw.length := cumulative_le _ _
  have h1 : 1 ≤ raw.length := by omega
  have key : equalizeLevel (cumulative raw raw[i]) raw.length = UInt8.ofNat (255 * cumulative raw raw[i] / raw.length) := by
    by_cases hs : raw.length ≤ 131072
    · exact equalizeLevel_small _ _ hc h1 hs
    · rcases h with h | ⟨k, hk, he⟩
      · exact absurd h (by simpa using hs)
      · have h18 : 18 ≤ k := by
          by_contra hlt
          have : 2 ^ k ≤ 2 ^ 17 := Nat.pow_le_pow_right (by norm_num) (by omega)
          omega
        obtain ⟨j, rfl⟩ := Nat.exists_eq_add_of_le h18
        rw [he] at hc ⊢
        exact equalizeLevel_binary _ j (by omega) hc
  rw [key, UInt8.toNat_ofNat', Nat.mod_eq_of_lt]
  · rfl
  · have : 255 * cumulative raw raw[i] / raw.length ≤ 255 := Nat.div_le_of_le_mul (by nlinarith)
    omega

theorem level_418 : equalizeLevel 156909 (418 * 418) = 229 := by decide +kernel

/-- C83: it is not exact for all pictures: a picture of 418 x 418 samples, two grey levels, whose darker samples become 229 although their
share times 255 is below 229. -/
theorem equalizeSingle_inexact : ∃ raw : List UInt8, raw.length = 418 * 418 ∧ ∃ i, ∃ hi : i < raw.length,
    255 * (raw.countP fun w => decide (w ≤ raw[i])) / raw.length = 228 ∧ (equalizeSingle raw).getD i 0 = 229 := by
  have gen : ∀ a b : Nat, 0 < a → ∃ raw : List UInt8, raw.length = a + b ∧ ∃ i, ∃ hi : i < raw.length,
      (raw.countP fun w => decide (w ≤ raw[i])) = a ∧ (equalizeSingle raw).getD i 0 = equalizeLevel a (a + b) := by
    intro a b ha
    have hlen : (List.replicate a (0 : UInt8) ++ List.replicate b 255).length = a + b := by
      rw [List.length_append, List.length_replicate, List.length_replicate]
    have h0 : 0 < (List.replicate a (0 : UInt8) ++ List.replicate b 255).length := by omega
    have hget : (List.replicate a (0 : UInt8) ++ List.replicate b 255)[0] = 0 := by
      rw [List.getElem_append_left (by rw [List.length_replicate]; exact ha), List.getElem_replicate]
    have hc : cumulative (List.replicate a (0 : UInt8) ++ List.replicate b 255) 0 = a := by
      unfold cumulative
      rw [List.countP_append, List.countP_replicate, List.countP_replicate, if_pos (by decide), if_neg (by decide), Nat.add_zero]
    refine ⟨_, hlen, 0, h0, ?_, ?_⟩
    · rw [hget]; exact hc
    · rw [List.getD_eq_getElem _ _ (by rw [equalizeSingle_length]; exact h0), equalizeSingle_getElem _ 0 h0, hget, hc, hlen]
  obtain ⟨raw, h1, i, hi, h2, h3⟩ := gen 156909 17815 (by norm_num)
  refine ⟨raw, h1.trans (by norm_num), i, hi, ?_, h3.trans level_418⟩
  rw [h2, h1]

/-- The condition of `equalizeSingle_exact` can be met: any raw data of a picture with sides 512. -/
example : ∃ raw : List UInt8, raw.length = 512 * 512 ∧ ((equalizeSingle raw).getD 0 0).toNat = 85 := by
  have gen : ∀ a b k : Nat, 0 < a → a + b = 2 ^ k → k ≤ 24 → ∃ raw : List UInt8, raw.length = 2 ^ k ∧
      ((equalizeSingle raw).getD 0 0).toNat = 255 * a / 2 ^ k := by
    intro a b k ha hab hk
    have hlen : (List.replicate a (0 : UInt8) ++ List.replicate b 255).length = 2 ^ k := by
      rw [List.length_append, List.length_replicate, List.length_replicate, hab]
    have h0 : 0 < (List.replicate a (0 : UInt8) ++ List.replicate b 255).length := by rw [hlen, ← hab]; omega
    refine ⟨_, hlen, ?_⟩
    rw [equalizeSingle_exact _ (Or.inr ⟨k, hk, hlen⟩) 0 h0, hlen,
      List.getElem_append_left (by rw [List.length_replicate]; exact ha), List.getElem_replicate, List.countP_append,
      List.countP_replicate, List.countP_replicate, if_pos (by decide), if_neg (by decide), Nat.add_zero]
  obtain ⟨raw, h1, h2⟩ := gen 87382 174762 18 (by norm_num) (by norm_num) (by norm_num)
  exact ⟨raw, h1.trans (by norm_num), h2.trans (by norm_num)⟩

end Sia
