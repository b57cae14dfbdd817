import Verif.Props.FeatureBounds
import Verif.Props.RejectProps
import Verif.Model.Equalize

/-! C53: authentication survives brightness and contrast changes that keep the order of the samples. -/
namespace Sia
open LawfulFloat

/-- Contract of histogram equalisation: an increasing change of the samples is undone by it. (`p` is applied to all samples;
only its values on occurring samples matter.) -/
def Deps.OrderOnly {F : Type} (D : Deps F) : Prop :=
  ∀ (c : GrayImage) (p : UInt8 → UInt8), (∀ v ∈ c.raw, ∀ w ∈ c.raw, v < w → p v < p w) →
    D.equalize ⟨c.width, c.height, c.raw.map p⟩ = D.equalize c

theorem cumulative_mono (raw : List UInt8) (v w : UInt8) (h : v ≤ w) : cumulative raw v ≤ cumulative raw w := by
  unfold cumulative
  refine List.countP_mono_left fun x _ hx => ?_
  simp only [decide_eq_true_eq] at hx ⊢
  exact UInt8.le_trans hx h

theorem cumulative_le (raw : List UInt8) (v : UInt8) : cumulative raw v ≤ raw.length := List.countP_le_length

/-- C53 (contract): the documented histogram equalisation replaces each sample by the share of the samples that do not exceed it, scaled to
255 and rounded down; in particular it keeps the order of samples and sends the brightest sample to 255. -/
theorem equalizeExact_spec (raw : List UInt8) (i : Nat) (hi : i < raw.length) :
    ∃ h : i < (equalizeExact raw).length,
      ((equalizeExact raw)[i].toNat : ℚ) ≤ 255 * (raw.countP fun w => decide (w ≤ raw[i])) / raw.length ∧
      255 * (raw.countP fun w => decide (w ≤ raw[i])) / raw.length < ((equalizeExact raw)[i].toNat : ℚ) + 1 ∧
      (∀ (j : Nat) (hj : j < raw.length), raw[i] ≤ raw[j] → (equalizeExact raw)[i] ≤ ((equalizeExact raw)[j]?).getD 0) ∧
      ((∀ w ∈ raw, w ≤ raw[i]) → (equalizeExact raw)[i] = 255) := by
  have hlen : (equalizeExact raw).length = raw.length := List.length_map _
  have hn : 0 < raw.length := by omega
  have hval : ∀ (k : Nat) (hk : k < raw.length),
      ((equalizeExact raw)[k]'(by omega)).toNat = 255 * cumulative raw raw[k] / raw.length := by
    intro k hk
    have : (equalizeExact raw)[k]'(by omega) = UInt8.ofNat (255 * cumulative raw raw[k] / raw.length) := by
      simp [equalizeExact]
    rw [this, UInt8.toNat_ofNat', Nat.mod_eq_of_lt]
    have h1 := cumulative_le raw raw[k]
    have : 255 * cumulative raw raw[k] / raw.length ≤ 255 :=
      Nat.div_le_of_le_mul (by rw [Nat.mul_comm]; exact Nat.mul_le_mul_right _ h1)
    omega
  refine ⟨by omega, ?_, ?_, ?_, ?_⟩
  · rw [hval i hi]
    have : ((255 * cumulative raw raw[i] / raw.length : ℕ) : ℚ) ≤ ((255 * cumulative raw raw[i] : ℕ) : ℚ) / (raw.length : ℕ) :=
      Nat.cast_div_le
    refine this.trans (le_of_eq ?_)
    push_cast
    rfl
  · rw [hval i hi, div_lt_iff₀ (by exact_mod_cast hn)]
    have h1 : 255 * cumulative raw raw[i] < raw.length * (255 * cumulative raw raw[i] / raw.length) + raw.length := by
      conv_lhs => rw [← Nat.div_add_mod (255 * cumulative raw raw[i]) raw.length]
      exact Nat.add_lt_add_left (Nat.mod_lt _ hn) _
    have h2 : ((255 * cumulative raw raw[i] : ℕ) : ℚ) <
        ((raw.length * (255 * cumulative raw raw[i] / raw.length) + raw.length : ℕ) : ℚ) := by exact_mod_cast h1
    rw [Nat.cast_add, Nat.cast_mul raw.length] at h2
    rw [Nat.cast_mul 255] at h2
    have e : (255 * (raw.countP fun w => decide (w ≤ raw[i])) : ℚ) = ((255 : ℕ) : ℚ) * (cumulative raw raw[i] : ℚ) := by
      unfold cumulative
      norm_num
    rw [e]
    linarith
  · intro j hj hij
    rw [List.getElem?_eq_getElem (by omega), Option.getD_some, UInt8.le_iff_toNat_le, hval i hi, hval j hj]
    exact Nat.div_le_div_right (Nat.mul_le_mul_left _ (cumulative_mono raw _ _ hij))
  · intro h
    apply UInt8.toNat_inj.mp
    rw [hval i hi]
    have : cumulative raw raw[i] = raw.length := by
      unfold cumulative
      rw [List.countP_eq_length]
      intro w hw
      simpa using h w hw
    rw [this, Nat.mul_div_cancel _ hn]
    rfl

/-- Four samples: 10 (once), 20 (twice), 200 (once). -/
example : equalizeExact [10, 20, 200, 20] = [63, 191, 255, 191] := by decide +kernel

/-- The documented histogram equalisation meets the contract. -/
theorem equalizeExact_orderOnly (raw : List UInt8) (p : UInt8 → UInt8) (h : ∀ v ∈ raw, ∀ w ∈ raw, v < w → p v < p w) :
    equalizeExact (raw.map p) = equalizeExact raw := by
  unfold equalizeExact
  rw [List.map_map]
  apply List.map_congr_left
  intro v hv
  have hc : cumulative (raw.map p) (p v) = cumulative raw v := by
    unfold cumulative
    rw [List.countP_map]
    apply List.countP_congr
    intro w hw
    simp only [Function.comp, decide_eq_true_eq]
    constructor
    · intro hle
      by_contra hlt
      have h1 : p v < p w := h v hv w hw (UInt8.not_le.mp hlt)
      exact absurd hle (UInt8.not_le.mpr h1)
    · intro hle
      rcases UInt8.lt_or_eq_of_le hle with hlt | rfl
      · exact UInt8.le_of_lt (h w hw v hv hlt)
      · exact UInt8.le_refl _
  simp only [Function.comp, List.length_map, hc]

section
variable {F : Type} [FloatOps F]

/-- C53: the features of a channel do not change when its samples are changed by any increasing map. -/
theorem features_orderOnly (D : Deps F) (hD : D.OrderOnly) (c : GrayImage) (p : UInt8 → UInt8)
    (hp : ∀ v ∈ c.raw, ∀ w ∈ c.raw, v < w → p v < p w) (a : Nat) :
    equalizedFeatures D ⟨c.width, c.height, c.raw.map p⟩ a = equalizedFeatures D c a := by
  unfold equalizedFeatures
  dsimp only
  rw [hD c p hp]

variable [LawfulFloat F]

/-- C53: authentication gives the same answer for a marked channel and for every version of it in which the samples were
changed by an increasing map that moves each sample by at most `t` (for instance a brightness offset of at most `t` that does
not saturate). With C38: it authenticates. -/
theorem brightness_tolerated (D : Deps F) (hD : D.OrderOnly) (hL : D.ldpc.DecodesClean)
    (c : GrayImage) (n levels a : Nat) (depth step : F) (t : ℝ) (hc : c.IsSquare n)
    (hg : EmbedGeometry n levels c.pixels) (hs : SignalOK n levels c.pixels depth t)
    (hsup : SupportedCapacity (domainBytes n levels)) (hal : blockBytes (domainBytes n levels) ∣ domainBytes n levels)
    (hfit : recordBytes a + 4 ≤ domainBytes n levels / 2) (out : GrayImage)
    (hout : watermarkChannel D c depth step a levels = .ok out)
    (p : UInt8 → UInt8) (hp : ∀ v ∈ out.raw, ∀ w ∈ out.raw, v < w → p v < p w)
    (hpt : ∀ v ∈ out.raw, |((p v).toNat : ℝ) - (v.toNat : ℝ)| ≤ t) (step' : F) (a' : Nat) :
    authenticateChannel D ⟨out.width, out.height, out.raw.map p⟩ depth step' a' levels =
      authenticateChannel D out depth step' a' levels := by
  obtain ⟨_, _, ha85, _, _, fs, q, p', record, m, hf, hq, hser, hlen, he, hraw⟩ :=
    watermarkChannel_ok_only D c out depth step a levels hout
  obtain ⟨m', he', hm, hx⟩ := extract_tolerates_noise D.ldpc hL n levels c.pixels record depth t hg hs hsup hal
    (by rw [hlen]; unfold recordBytes; omega) (by rw [hlen]; unfold recordBytes; omega) (by rw [hlen]; exact hfit)
  rw [he] at he'
  cases he'
  obtain ⟨r1, r2, r3⟩ := fromRaw_toList m n hm
  have hout' : out = ⟨n, n, m.toList⟩ := by
    rw [hc.1, hc.2.1, r1] at hraw
    exact (Except.ok.inj hraw).symm
  have h2 : out.IsSquare n := by rw [hout']; exact r2
  have r3' : ∀ i < n, ∀ j < n, out.pixels.get i j = m.get i j := by rw [hout']; exact r3
  have hx1 : extract D.ldpc out.pixels depth levels = .ok record :=
    hx _ ⟨⟨h2.1, h2.2.1⟩, fun i hi j hj => by rw [r3' i hi j hj, sub_self, abs_zero]; exact hs.noise_nonneg⟩
  set br : GrayImage := ⟨out.width, out.height, out.raw.map p⟩ with hbr
  have hx2 : extract D.ldpc br.pixels depth levels = .ok record := by
    refine hx _ ⟨⟨h2.1, h2.2.1⟩, fun i hi j hj => ?_⟩
    have hlt : i * out.height + j < out.raw.length := by
      rw [h2.2.1, h2.2.2]
      calc i * n + j < i * n + n := by omega
        _ = (i + 1) * n := by ring
        _ ≤ n * n := Nat.mul_le_mul_right _ hi
    rw [← r3' i hi j hj]
    show |((((out.raw.map p).getD (i * out.height + j) 0).toNat : ℕ) : ℝ) - ((out.raw.getD (i * out.height + j) 0).toNat : ℝ)| ≤ t
    rw [List.getD_eq_getElem?_getD, List.getD_eq_getElem?_getD, List.getElem?_map, List.getElem?_eq_getElem hlt]
    exact hpt _ (List.getElem_mem hlt)
  have hfe : equalizedFeatures D br a' = equalizedFeatures D out a' := features_orderOnly D hD out p hp a'
  have hraw1 : out.raw.length = out.width * out.height := by rw [h2.1, h2.2.1, h2.2.2]
  have hraw2 : br.raw.length = br.width * br.height := by rw [hbr]; simpa using hraw1
  unfold authenticateChannel
  rw [fromShapeVec_ok out hraw1, fromShapeVec_ok br hraw2, hfe]
  simp only [bind, Except.bind]
  rw [hx1, hx2]

end
end Sia
