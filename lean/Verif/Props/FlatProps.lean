import Verif.Props.LocalityProps
import Verif.Props.TamperExamples

/-! C85 on pictures of one level: the marked picture is rejected. -/
namespace Sia
open FloatOps LawfulFloat Finset

theorem flatChannel_pixels (v : UInt8) (i j : Nat) (hi : i < 512) (hj : j < 512) : (flatChannel v).pixels.get i j = v := by
  rw [pixels_get_raw]
  unfold flatChannel
  dsimp only
  exact List.getD_replicate _ (by omega)

theorem flatChannel_blockValue (v : UInt8) (i j : Nat) (hi : i < 512) (hj : j < 512) :
    blockValue 3 (flatChannel v).pixels i j = 8 * (v.toNat : ℝ) := by
  unfold blockValue
  have : ∀ a ∈ range (2 ^ 3), ∀ b ∈ range (2 ^ 3),
      (((flatChannel v).pixels.get (i / 2 ^ 3 * 2 ^ 3 + a) (j / 2 ^ 3 * 2 ^ 3 + b)).toNat : ℝ) = (v.toNat : ℝ) := by
    intro a ha b hb
    have ha' := mem_range.mp ha
    have hb' := mem_range.mp hb
    rw [flatChannel_pixels v _ _ (by omega) (by omega)]
  rw [sum_congr rfl fun a ha => sum_congr rfl (this a ha)]
  simp only [sum_const, card_range, nsmul_eq_mul]
  push_cast
  ring

/-- Marking a flat picture with depth 100 whose eightfold level is 30 to 48 above a multiple of 100 makes the whole upper half darker. -/
theorem flat_darkens (L : Ldpc) (v : UInt8) (hv : 10 ≤ v.toNat) (h1 : 30 ≤ 8 * v.toNat % 100) (h2 : 8 * v.toNat % 100 ≤ 48)
    (payload : List UInt8) (out : Mat UInt8) (he : embed L (flatChannel v).pixels payload (F64.fin 100) 3 = .ok out)
    (hlen : 8 * encodedLength (domainBytes 512 3) payload.length = 2048) :
    (∀ i < 256, ∀ j < 512, out.get i j < v) ∧ ∀ i < 512, 256 ≤ i → ∀ j < 512, out.get i j = v := by
  have hval : val (F64.fin 100) = 100 := by
    show (((100 : ℚ) : ℝ)) = 100
    norm_num
  have hgood : GoodDepth (F64.fin 100) := ⟨trivial, by rw [hval]; norm_num, by rw [hval]; norm_num⟩
  have hsq : (flatChannel v).pixels.IsSquare 512 := ⟨rfl, rfl⟩
  have hsl := embedSlack_double 3 le_rfl
  have hs0 := embedSlack_nonneg (F := F64) 3
  constructor
  · intro i hi j hj
    obtain ⟨_, _, _, _, a5, _⟩ := embed_ok_only L _ out payload _ 3 (by rw [hsq.1]; norm_num) (by rw [hsq.2]; norm_num) he
    obtain ⟨k, k1, k2⟩ := embed_block L 512 3 _ out payload _ (F64.fin 100) (by norm_num) hsq hgood (by rw [hval]; norm_num) he
      ((data_serialize_spec payload).1 a5) i j (by omega) hj (by rw [hlen]; unfold pixelCell; omega)
    have k3 := k2 i (by omega) j hj rfl rfl
    rw [flatChannel_blockValue v i j (by omega) hj, hval] at k1 k3
    rw [flatChannel_pixels v i j (by omega) hj] at k3
    set q := signedQuarter ((bytesBits (encode L _ (domainBytes 512 3))).getD (pixelCell 512 3 i j) false)
    have hq : q ≤ 1 / 4 := by
      show signedQuarter _ ≤ _
      unfold signedQuarter
      split_ifs <;> norm_num
    clear_value q
    obtain ⟨m, r, hm, hr1, hr2⟩ : ∃ m r : Nat, 8 * v.toNat = 100 * m + r ∧ 30 ≤ r ∧ r ≤ 48 :=
      ⟨8 * v.toNat / 100, 8 * v.toNat % 100, by omega, h1, h2⟩
    have hm' : 8 * (v.toNat : ℝ) = 100 * (m : ℝ) + (r : ℝ) := by exact_mod_cast hm
    have hr1' : (30 : ℝ) ≤ r := by exact_mod_cast hr1
    have hr2' : (r : ℝ) ≤ 48 := by exact_mod_cast hr2
    have hkm : (k : ℝ) ≤ m := by
      have : (k : ℝ) < ((m : ℤ) : ℝ) + 1 := by
        have := (abs_le.mp k1).2
        rw [hm'] at this
        have e : (100 * (m : ℝ) + r) / 100 = m + r / 100 := by ring
        rw [e] at this
        push_cast
        norm_num at hsl this ⊢
        linarith
      have h3 : k < (m : ℤ) + 1 := by exact_mod_cast this
      exact_mod_cast (by omega : k ≤ (m : ℤ))
    have hv' : (10 : ℝ) ≤ (v.toNat : ℝ) := by exact_mod_cast hv
    have hclamp : clampPixel ((v.toNat : ℝ) + (100 * (k + q) - 8 * (v.toNat : ℝ)) / 2 ^ 3) ≤ (v.toNat : ℝ) - 5 / 8 := by
      unfold clampPixel
      refine max_le (by linarith) (le_trans (min_le_right _ _) ?_)
      linarith
    have := (abs_le.mp k3).2
    have hlt : ((out.get i j).toNat : ℝ) < (v.toNat : ℝ) := by
      have hsl2 : embedSlack F64 3 * 100 / 2 ^ 3 ≤ 1 / 100 := by
        norm_num at hsl ⊢
        linarith
      linarith
    exact UInt8.lt_iff_toNat_lt.mpr (by exact_mod_cast hlt)
  · intro i hi hge j hj
    rw [embed_outside L 512 3 _ out payload (F64.fin 100) (by norm_num) hsq hgood (by rw [hval]; norm_num) (by
      rw [hval]; norm_num at hsl ⊢; linarith) he i j hi hj (by rw [hlen]; unfold pixelCell; omega), flatChannel_pixels v i j hi hj]

/-- C85: a flat picture does not survive its own marking. For every level `v` between 10 and 245 whose eightfold is 30 to 48 above a
multiple of the depth 100, the picture of that level is marked successfully (one feature, every step up to 8), but the marked
picture itself is rejected, unless its restored cells and the signed ones are a collision of the hash. -/
theorem flat_picture_rejected (M : Libm F64) (hM : M.Lawful) (v : UInt8) (hv1 : 10 ≤ v.toNat) (hv2 : v.toNat ≤ 245)
    (h1 : 30 ≤ 8 * v.toNat % 100) (h2 : 8 * v.toNat % 100 ≤ 48) (s : ℚ) (hs1 : 1 / 2 ^ 20 ≤ (s : ℝ)) (hs2 : (s : ℝ) ≤ 8) :
    ∃ out fs q p gs q' b, watermarkChannel (Deps.program M) (flatChannel v) (.fin 100) (.fin s) 1 3 = .ok out ∧
      equalizedFeatures (Deps.program M) (flatChannel v) 1 = .ok fs ∧ threeBitQuantization fs (.fin s) = .ok (q, p) ∧
      equalizedFeatures (Deps.program M) out 1 = .ok gs ∧ threeBitDequantization gs p (.fin s) = .ok q' ∧
      authenticateChannel (Deps.program M) out (.fin 100) (.fin s) 1 3 = .ok b ∧
      (b = true → HashCollision ((Ed25519.rfc8032.sign (builtinSecret ++ builtinPublic) (vecI64ToBytes q)).take 32)
        builtinPublic (vecI64ToBytes q') (vecI64ToBytes q)) := by
  have hv1' : (10 : ℝ) ≤ (v.toNat : ℝ) := by exact_mod_cast hv1
  have hv2' : (v.toNat : ℝ) ≤ 245 := by exact_mod_cast hv2
  have hc := flatChannel_square v
  obtain ⟨out, fs, q, p, e1, e2, e3, e4, e5⟩ := program_notices M hM (flatChannel v) 512 3 1 100 s 0 hc
    ⟨⟨hc.1, hc.2.1⟩, by decide, by decide, by decide, by decide⟩ le_rfl (by norm_num) (by decide) (by decide) (by decide) le_rfl
    (by norm_num) le_rfl (by norm_num) (by
      intro i hi j hj
      rw [flatChannel_pixels v i j hi hj]
      constructor
      · refine le_trans ?_ hv1'
        norm_num
      · refine le_trans hv2' ?_
        norm_num) hs1 (hs2.trans (by norm_num))
  have hbb : BrightBelow v out := by
    obtain ⟨_, _, _, _, _, fs', q', p', record, m, hf, hq, hser, hlen, he, hraw⟩ :=
      watermarkChannel_ok_only (Deps.program M) (flatChannel v) out (.fin 100) (.fin s) 1 3 e1
    obtain ⟨hm1, hm2⟩ := embed_shape _ _ m record _ 3 he
    have hmsq : m.IsSquare 512 := ⟨by rw [hm1]; exact hc.1, by rw [hm2]; exact hc.2.1⟩
    obtain ⟨r1, r2, r3⟩ := fromRaw_toList m 512 hmsq
    have hout' : out = ⟨512, 512, m.toList⟩ := by
      rw [hc.1, hc.2.1, r1] at hraw
      exact (Except.ok.inj hraw).symm
    obtain ⟨d1, d2⟩ := flat_darkens _ v hv1 h1 h2 record m he (by rw [hlen]; decide)
    have hget : ∀ i < 512, ∀ j < 512, out.pixels.get i j = m.get i j := by
      rw [hout']
      exact r3
    refine ⟨e2, fun i hi j hj => ?_, fun i hi hge j hj => ?_⟩
    · rw [hget i (by omega) j hj]
      exact d1 i hi j hj
    · rw [hget i hi j hj]
      exact d2 i hi hge j hj
  obtain ⟨gs, q', b, g1, g2, g3, g4⟩ := e5 out e2 (upper_half_readable 1 (by norm_num) 0 _ _ (by intro i _ j _; simp))
  refine ⟨out, fs, q, p, gs, q', b, e1, e3, e4, g1, g2, g3, g4 ⟨0, by norm_num, ?_⟩⟩
  have hlow := brightBelow_moment M v out hbb
  show _ < |‖specMoment 512 (pixelReal (equalizedPixels (Deps.program M) out)) 1 1‖ -
    ‖specMoment 512 (pixelReal (equalizedPixels (Deps.program M) (flatChannel v))) 1 1‖|
  rw [flatChannel_moment, sub_zero]
  refine lt_of_lt_of_le ?_ (le_abs_self _)
  have : (3 / 2 + 1 / 2 ^ 17) * (s : ℝ) ≤ (3 / 2 + 1 / 2 ^ 17) * 8 := mul_le_mul_of_nonneg_left hs2 (by norm_num)
  norm_num at this ⊢
  linarith

/-- There are such levels: for example 42, 55, 67, 105. -/
example : ∀ v ∈ [(42 : UInt8), 43, 55, 56, 67, 68, 92, 93, 105, 106, 117, 118, 130, 131],
    10 ≤ v.toNat ∧ v.toNat ≤ 245 ∧ 30 ≤ 8 * v.toNat % 100 ∧ 8 * v.toNat % 100 ≤ 48 := by decide

end Sia
