import Verif.Props.NoisyImageProps

/-! C92: a picture that is dimmed after each marking. -/
namespace Sia
open FloatOps LawfulFloat Finset

/-- A loss: all colours two levels darker. -/
def dimmed (image : DynamicImage) : DynamicImage :=
  { image with pixel := fun x y =>
      let p := image.pixel x y
      ⟨.ofNat (p.r.toNat - 2), .ofNat (p.g.toNat - 2), .ofNat (p.b.toNat - 2), p.a⟩ }

theorem dimmed_sample (image : DynamicImage) (s : Rgba → UInt8) (hs : s ∈ [Rgba.r, Rgba.g, Rgba.b]) (x y : Nat)
    (h : 2 ≤ (s (image.pixel x y)).toNat) : ((s ((dimmed image).pixel x y)).toNat : ℤ) = (s (image.pixel x y)).toNat - 2 := by
  have key : ∀ v : UInt8, 2 ≤ v.toNat → ((UInt8.ofNat (v.toNat - 2)).toNat : ℤ) = v.toNat - 2 := by
    intro v hv
    rw [UInt8.toNat_ofNat_of_lt' (by have := v.toNat_lt; show _ < 256; omega)]
    omega
  simp only [List.mem_cons, List.not_mem_nil, or_false] at hs
  rcases hs with rfl | rfl | rfl <;> exact key _ h

theorem dimmed_grey (image : DynamicImage) (h : GreyPixels image) : GreyPixels (dimmed image) := by
  intro hc x hx y hy
  obtain ⟨h1, h2⟩ := h hc x hx y hy
  constructor
  · show UInt8.ofNat ((image.pixel x y).g.toNat - 2) = UInt8.ofNat ((image.pixel x y).r.toNat - 2)
    rw [h1]
  · show UInt8.ofNat ((image.pixel x y).b.toNat - 2) = UInt8.ofNat ((image.pixel x y).r.toNat - 2)
    rw [h2]

/-- Blocks that differ by a common shift differ by 64 times the shift in the sum. -/
theorem sampleSum_shift (n : Nat) (a b : DynamicImage) (s : Rgba → UInt8) (i j : Nat) (m : ℤ) (h8 : 8 ∣ n) (hi : i < n) (hj : j < n)
    (h : ∀ i' < n, ∀ j' < n, SameBlock i j i' j' → ((s (b.pixel i' j')).toNat : ℤ) = (s (a.pixel i' j')).toNat + m) :
    (sampleSum b s i j : ℤ) = sampleSum a s i j + 64 * m := by
  unfold sampleSum
  push_cast
  have : ∀ p ∈ range 8, ∀ q ∈ range 8, ((s (b.pixel (i / 8 * 8 + q) (j / 8 * 8 + p))).toNat : ℤ) =
      (s (a.pixel (i / 8 * 8 + q) (j / 8 * 8 + p))).toNat + m := by
    intro p hp q hq
    have hp := mem_range.mp hp
    have hq := mem_range.mp hq
    exact h _ (by omega) _ (by omega) ⟨by omega, by omega⟩
  rw [sum_congr rfl fun p hp => sum_congr rfl fun q hq => this p hp q hq]
  simp only [sum_add_distrib, sum_const, card_range, nsmul_eq_mul]
  push_cast
  ring

/-- A picture marked by the program, dimmed, marked again, dimmed again and so on: in the blocks that carry the record no sample of the
marked pictures is ever more than 9 levels away from the original, although the losses add up to any amount. -/
theorem dimmed_for_ever (M : Libm F64) (hM : ∀ x y, M.hypot x y = .nan ∨ FloatOps.ge (M.hypot x y) (.fin 0) = true)
    (n : Nat) (image : DynamicImage) (hw : image.width = n) (hh : image.height = n) (h8 : 8 ∣ n) (h216 : 216 ≤ n) (h256 : n ≠ 256)
    (hg : GreyPixels image)
    (hroom : ∀ s ∈ [Rgba.r, Rgba.g, Rgba.b], ∀ x < n, ∀ y < n, 21 ≤ (s (image.pixel x y)).toNat ∧ (s (image.pixel x y)).toNat ≤ 234)
    (hsum : ∀ s ∈ [Rgba.r, Rgba.g, Rgba.b], ∀ x < n, ∀ y < n, sampleSum image s x y % 16 ≠ 8) :
    ∃ pictures marked : Nat → DynamicImage, pictures 0 = image ∧
      (∀ k, watermark (Deps.program M) (pictures k) (.fin 100) (.fin 1) 11 = .ok (marked k)) ∧
      (∀ k, pictures (k + 1) = dimmed (marked k)) ∧
      ∀ s ∈ [Rgba.r, Rgba.g, Rgba.b], ∀ x < n, ∀ y < n, y / 8 * (n / 8) + x / 8 < 8 * encodedLength (domainBytes n 3) (recordBytes 11) →
        ∀ k, |((s ((marked k).pixel x y)).toNat : ℤ) - (s (image.pixel x y)).toNat| ≤ 9 := by
  have hn : 0 < n := by omega
  have mark : ∀ z : { z : DynamicImage // z.width = n ∧ z.height = n }, ∃ m : { z : DynamicImage // z.width = n ∧ z.height = n },
      watermark (Deps.program M) z.1 (.fin 100) (.fin 1) 11 = .ok m.1 := by
    intro ⟨z, zw, zh⟩
    obtain ⟨m, hm⟩ := program_marks M hM z n (.fin 100) (.fin 1) zw zh h8 h216 h256 (by decide)
    obtain ⟨k1, k2, _⟩ := watermark_keeps_shape_and_alpha _ _ _ _ _ _ hm
    exact ⟨⟨m, k1.trans zw, k2.trans zh⟩, hm⟩
  choose f hf using mark
  let ps : Nat → { z : DynamicImage // z.width = n ∧ z.height = n } :=
    fun k => Nat.rec ⟨image, hw, hh⟩ (fun _ z => ⟨dimmed (f z).1, (f z).2⟩) k
  refine ⟨fun k => (ps k).1, fun k => (f (ps k)).1, rfl, fun k => hf (ps k), fun k => rfl, fun s hs x hx y hy ho => ?_⟩
  have step : ∀ z : { z : DynamicImage // z.width = n ∧ z.height = n }, GreyPixels z.1 →
      Relation.ReflTransGen (LossyGeneration n s x y) image z.1 →
      (∃ m : ℤ, |m| ≤ 11 ∧ ∀ x' < n, ∀ y' < n, SameBlock x y x' y' → ((s (z.1.pixel x' y')).toNat : ℤ) = (s (image.pixel x' y')).toNat + m) →
      GreyPixels (f z).1 ∧
      (∀ x' < n, ∀ y' < n, SameBlock x y x' y' → 10 ≤ (s (z.1.pixel x' y')).toNat ∧ (s (z.1.pixel x' y')).toNat ≤ 245) ∧
      ∃ m : ℤ, |m| ≤ 9 ∧ ∀ x' < n, ∀ y' < n, SameBlock x y x' y' → ((s ((f z).1.pixel x' y')).toNat : ℤ) = (s (image.pixel x' y')).toNat + m := by
    intro z zg zc ⟨m, m1, m2⟩
    have hr : ∀ x' < n, ∀ y' < n, SameBlock x y x' y' → 10 ≤ (s (z.1.pixel x' y')).toNat ∧ (s (z.1.pixel x' y')).toNat ≤ 245 := by
      intro x' hx' y' hy' hb
      have e := m2 x' hx' y' hy' hb
      obtain ⟨r1, r2⟩ := hroom s hs x' hx' y' hy'
      have := abs_le.mp m1
      omega
    have e0 := sampleSum_shift n image z.1 s x y m h8 hx hy m2
    have hchain := Relation.ReflTransGen.single (r := fun a b => ∃ (D : Deps F64) (step : F64) (amount : Nat),
      watermark D a (F64.fin 100) step amount = .ok b) ⟨Deps.program M, .fin 1, 11, hf z⟩
    obtain ⟨m', _, n2⟩ := remarking_tool n z.1 (f z).1 hn z.2.1 z.2.2 zg s hs x y hx hy hr
      (by have := hsum s hs x hx y hy; omega) hchain
    have hg' := (remarked_planes z.1 (f z).1 (F64.fin 100) zg hchain s hs).1
    have n3 : ∀ x' < n, ∀ y' < n, SameBlock x y x' y' → ((s ((f z).1.pixel x' y')).toNat : ℤ) = (s (image.pixel x' y')).toNat + (m + m') := by
      intro x' hx' y' hy' hb
      rw [n2 x' hx' y' hy' hb, m2 x' hx' y' hy' hb, add_assoc]
    have e1 := sampleSum_shift n image (f z).1 s x y (m + m') h8 hx hy n3
    have key := lossy_generations n image z.1 (f z).1 hn hw hh hg s hs x y hx hy ho zc (Deps.program M) (.fin 1) hr (hf z)
    rw [e1, add_sub_cancel_left] at key
    refine ⟨hg', hr, m + m', ?_, n3⟩
    rw [abs_le] at key ⊢
    omega
  have inv : ∀ k, GreyPixels (ps k).1 ∧ Relation.ReflTransGen (LossyGeneration n s x y) image (ps k).1 ∧
      ∃ m : ℤ, |m| ≤ 11 ∧ ∀ x' < n, ∀ y' < n, SameBlock x y x' y' → ((s ((ps k).1.pixel x' y')).toNat : ℤ) = (s (image.pixel x' y')).toNat + m := by
    intro k
    induction k with
    | zero => exact ⟨hg, .refl, 0, by norm_num, fun x' _ y' _ _ => (add_zero _).symm⟩
    | succ k ih =>
      obtain ⟨i1, i2, i3⟩ := ih
      obtain ⟨s1, s2, m, s3, s4⟩ := step (ps k) i1 i2 i3
      have hm := abs_le.mp s3
      have hd : ∀ x' < n, ∀ y' < n, SameBlock x y x' y' →
          ((s ((dimmed (f (ps k)).1).pixel x' y')).toNat : ℤ) = (s ((f (ps k)).1.pixel x' y')).toNat + -2 := by
        intro x' hx' y' hy' hb
        have e := s4 x' hx' y' hy' hb
        obtain ⟨r1, r2⟩ := hroom s hs x' hx' y' hy'
        rw [dimmed_sample _ s hs x' y' (by omega)]
        ring
      refine ⟨dimmed_grey _ s1, i2.tail ⟨Deps.program M, .fin 1, (f (ps k)).1, s2, hf (ps k), dimmed_grey _ s1, (f (ps k)).2.1, (f (ps k)).2.2, ?_⟩,
        m - 2, by rw [abs_le]; omega, fun x' hx' y' hy' hb => ?_⟩
      · have e := sampleSum_shift n (f (ps k)).1 (dimmed (f (ps k)).1) s x y (-2) h8 hx hy hd
        rw [show (ps (k + 1)).1 = dimmed (f (ps k)).1 from rfl, e, add_sub_cancel_left]
        decide
      · rw [show (ps (k + 1)).1 = dimmed (f (ps k)).1 from rfl, hd x' hx' y' hy' hb, s4 x' hx' y' hy' hb]
        ring
  intro k
  obtain ⟨i1, i2, i3⟩ := inv k
  obtain ⟨_, _, m, s3, s4⟩ := step (ps k) i1 i2 i3
  rw [s4 x hx y hy ⟨rfl, rfl⟩, add_sub_cancel_left]
  exact s3

/-- The stripes, marked and dimmed for ever. -/
example : ∃ pictures marked : Nat → DynamicImage, pictures 0 = stripes ∧
    (∀ k, watermark (Deps.program idealLibm) (pictures k) (.fin 100) (.fin 1) 11 = .ok (marked k)) ∧
    (∀ k, pictures (k + 1) = dimmed (marked k)) ∧
    ∀ s ∈ [Rgba.r, Rgba.g, Rgba.b], ∀ x < 512, ∀ y < 256, ∀ k, |((s ((marked k).pixel x y)).toNat : ℤ) - (s (stripes.pixel x y)).toNat| ≤ 9 := by
  obtain ⟨ps, ms, h1, h2, h3, h4⟩ := dimmed_for_ever idealLibm idealLibm_moduli 512 stripes rfl rfl ⟨64, rfl⟩ (by norm_num) (by norm_num)
    (fun h => by cases h) (by
      intro s hs x _ y _
      simp only [List.mem_cons, List.not_mem_nil, or_false] at hs
      unfold stripes
      rcases hs with rfl | rfl | rfl <;> dsimp only
      · split_ifs <;> decide
      · decide
      · decide) (fun s hs x _ y _ => stripes_sum_all s hs x y)
  refine ⟨ps, ms, h1, h2, h3, fun s hs x hx y hy k => h4 s hs x hx y (by omega) ?_ k⟩
  have e : encodedLength (domainBytes 512 3) (recordBytes 11) = 256 := by decide +kernel
  rw [e]
  omega

end Sia
