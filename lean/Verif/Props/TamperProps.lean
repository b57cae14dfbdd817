import Verif.Spec.TamperSpec
import Verif.Props.QuantFarProps
import Verif.Props.ProgramProps

/-! C84: contents that changed too much are not accepted. -/
namespace Sia
open FloatOps LawfulFloat

section
variable {F : Type} [FloatOps F] [LawfulFloat F]

/-- Noise of at most `t` in every pixel damages no cell. -/
theorem withinNoise_readable (n levels a : Nat) (t : ℝ) (marked received : Mat UInt8) (h : WithinNoise n t marked received) :
    RecordReadable n levels a t marked received := by
  intro i _ damaged hd
  have : damaged = ∅ := by
    rw [Finset.eq_empty_iff_forall_notMem]
    intro k hk
    obtain ⟨_, p, hp, q, hq, _, _, hlt⟩ := hd k hk
    have := h.2 p hp q hq
    linarith
  rw [this]
  simp

/-- C84: a received channel from which the record can be read is judged by the signature of the source's feature cells. -/
theorem tampered_channel_verdict (D : Deps F) (hD : D.Actual)
    (c : GrayImage) (n levels a : Nat) (depth step : F) (t : ℝ) (hc : c.IsSquare n)
    (hg : EmbedGeometry n levels c.pixels) (hs : SignalOK n levels c.pixels depth t)
    (hsup : SupportedCapacity (domainBytes n levels)) (hal : blockBytes (domainBytes n levels) ∣ domainBytes n levels)
    (hfit : recordBytes a + 4 ≤ domainBytes n levels / 2) (ha : a ≤ 85)
    (fs : List F) (hf : equalizedFeatures D c a = .ok fs) (q : List Int) (p : List Bool)
    (hq : threeBitQuantization fs step = .ok (q, p)) :
    ∃ out, watermarkChannel D c depth step a levels = .ok out ∧ out.IsSquare n ∧
      ∀ received : GrayImage, received.IsSquare n → RecordReadable n levels a t out.pixels received.pixels →
        ∀ (a' : Nat) (b : Bool), authenticateChannel D received depth step a' levels = .ok b ↔
          ∃ gs q', equalizedFeatures D received a' = .ok gs ∧ threeBitDequantization gs p step = .ok q' ∧
            b = D.ed.verify builtinPublic (vecI64ToBytes q') (D.ed.sign (builtinSecret ++ builtinPublic) (vecI64ToBytes q)) := by
  obtain ⟨-, hL, hk⟩ := actual_contracts D hD
  obtain ⟨c1, c2, c3⟩ := hc
  have hraw : c.raw.length = c.width * c.height := by rw [c1, c2, c3]
  obtain ⟨_, hq2⟩ := threeBitQuantization_lengths fs step q p hq
  obtain ⟨_, hl, _⟩ := equalizedFeatures_length D c a fs hf
  obtain ⟨record, _, hdes, hlen, hwm⟩ := watermarkChannel_split D c depth step a levels hraw fs hf q p hq hk.keypair
    (by rw [hq2, hl]; omega)
  have hlen' : record.length = recordBytes a := hlen
  obtain ⟨m, he, hm, hx⟩ := extract_corrects_damage D.ldpc n levels c.pixels record depth t 2 (hL _) hg hs hsup hal
    (by rw [hlen]; unfold recordBytes; omega) (by rw [hlen]; unfold recordBytes; omega) (by rw [hlen]; exact hfit)
  obtain ⟨r1, r2, r3⟩ := fromRaw_toList m n hm
  refine ⟨⟨n, n, m.toList⟩, ?_, r2, ?_⟩
  · rw [hwm, he, c1, c2]; exact r1
  · intro received hn hread a' b
    have hxn : extract D.ldpc received.pixels depth levels = .ok record := by
      refine hx _ ⟨hn.1, hn.2.1⟩ ?_
      intro i hi damaged hdam
      rw [hlen'] at hi
      refine hread i hi damaged fun k hk => ⟨(hdam k hk).1, ?_⟩
      obtain ⟨_, x, hx1, y, hy1, e1, e2, e3⟩ := hdam k hk
      refine ⟨x, hx1, y, hy1, e1, e2, ?_⟩
      rw [r3 x hx1 y hy1]
      exact e3
    have hdes' : deserializeWatermark record =
        .ok ⟨p, D.ed.sign (builtinSecret ++ builtinPublic) (vecI64ToBytes q), watermarkText⟩ := by
      have := hdes []
      rwa [List.append_nil] at this
    rw [authenticate_iff]
    constructor
    · rintro ⟨_, gs, data, w, q', h1, h2, h3, h4, _, _, h5⟩
      rw [hxn] at h2
      cases h2
      rw [hdes'] at h3
      cases h3
      exact ⟨gs, q', h1, h4, h5.symm⟩
    · rintro ⟨gs, q', h1, h4, h5⟩
      exact ⟨by rw [hn.1, hn.2.1, hn.2.2], gs, record, _, q', h1, hxn, hdes', h4, hk.public_ok, hk.parses _, h5.symm⟩

/-- Cells that quantization or dequantization returned are determined by their bytes. -/
theorem cells_bytes_injective (fs gs : List F) (step : F) (q q' : List Int) (p p' : List Bool)
    (hq : threeBitQuantization fs step = .ok (q, p)) (hd : threeBitDequantization gs p' step = .ok q')
    (h : vecI64ToBytes q' = vecI64ToBytes q) : q' = q := by
  have hrange : ∀ (xs : List F) (x : Int), x ∈ quantize xs step → -2 ^ 63 ≤ x ∧ x < 2 ^ 63 := by
    intro xs x hx
    obtain ⟨f, _, rfl⟩ := List.mem_map.mp hx
    have := truncSat_range (F := F) i64Min i64Max (FloatOps.floor (FloatOps.div f step)) (by decide) (by decide)
    unfold quantizeOne
    unfold i64Min i64Max at *
    omega
  apply i64_bytes_injective _ _ _ _ h
  · intro x hx
    unfold threeBitDequantization at hd
    obtain ⟨y, hy, hd⟩ := (bind_ok_iff _ _ _).mp hd
    obtain ⟨r, hr, hd⟩ := (bind_ok_iff _ _ _).mp hd
    cases hd
    exact hrange _ x hx
  · intro x hx
    rw [(threeBitQuantization_lengths fs step q p hq).1] at hx
    exact hrange _ x hx

/-- C84: tampering that leaves the record readable and the features within a step of the original ones is not held against the
picture. -/
theorem tampered_channel_authenticates (D : Deps F) (hD : D.Actual)
    (c : GrayImage) (n levels a : Nat) (depth step : F) (t : ℝ) (hc : c.IsSquare n)
    (hg : EmbedGeometry n levels c.pixels) (hs : SignalOK n levels c.pixels depth t)
    (hsup : SupportedCapacity (domainBytes n levels)) (hal : blockBytes (domainBytes n levels) ∣ domainBytes n levels)
    (hfit : recordBytes a + 4 ≤ domainBytes n levels / 2) (ha : a ≤ 85)
    (hstep : GoodDepth step) (K : ℝ) (hK0 : 0 ≤ K) (hK : K ≤ 2 ^ 39)
    (fs : List F) (hf : equalizedFeatures D c a = .ok fs)
    (hfs : ∀ f ∈ fs, fin f ∧ |val f| ≤ K * val step ∧ AwayFromHalves (quantMargin F K) (val f / val step)) :
    ∃ out, watermarkChannel D c depth step a levels = .ok out ∧ out.IsSquare n ∧
      ∀ received : GrayImage, received.IsSquare n → RecordReadable n levels a t out.pixels received.pixels →
        ∀ gs : List F, equalizedFeatures D received a = .ok gs →
          (∀ g ∈ gs, fin g ∧ AwayFromHalves (quantMargin F K) (val g / val step)) →
          List.Forall₂ (fun f g => |val g - val f| ≤ val step) fs gs →
          authenticateChannel D received depth step a levels = .ok true := by
  have hfs' : List.Forall₂ (fun f g => |val g - val f| ≤ val step) fs fs := by
    rw [List.forall₂_same]
    intro x _; simp only [sub_self, abs_zero]; exact hstep.pos.le
  obtain ⟨q, p, hq, _⟩ := dequantization_undoes_noise_float step hstep K hK0 hK fs fs hfs
    (fun g hg' => ⟨(hfs g hg').1, (hfs g hg').2.2⟩) hfs'
  obtain ⟨out, h1, h2, h3⟩ := tampered_channel_verdict D hD c n levels a depth step t hc hg hs hsup hal hfit ha fs hf q p hq
  refine ⟨out, h1, h2, ?_⟩
  intro received hn hread gs hgs hgf hclose
  obtain ⟨q', p', hq', hd⟩ := dequantization_undoes_noise_float step hstep K hK0 hK fs gs hfs hgf hclose
  rw [hq] at hq'
  cases hq'
  exact (h3 received hn hread a true).mpr ⟨gs, q, hgs, hd, ((actual_contracts D hD).2.2.verifies _).symm⟩

/-- C84: a received picture that still carries the record and in which some feature moved by more than one and a half steps is not
accepted, unless the bytes of its restored cells and of the signed cells are a collision of the hash. -/
theorem tampered_channel_noticed (D : Deps F) (hD : D.Actual)
    (c : GrayImage) (n levels a : Nat) (depth step : F) (t : ℝ) (hc : c.IsSquare n)
    (hg : EmbedGeometry n levels c.pixels) (hs : SignalOK n levels c.pixels depth t)
    (hsup : SupportedCapacity (domainBytes n levels)) (hal : blockBytes (domainBytes n levels) ∣ domainBytes n levels)
    (hfit : recordBytes a + 4 ≤ domainBytes n levels / 2) (ha : a ≤ 85)
    (hstep : GoodDepth step) (K : ℝ) (hK : K ≤ 2 ^ 40)
    (fs : List F) (hf : equalizedFeatures D c a = .ok fs) (hfs : ∀ f ∈ fs, fin f ∧ |val f| ≤ K * val step)
    (q : List Int) (p : List Bool) (hq : threeBitQuantization fs step = .ok (q, p)) :
    ∃ out, watermarkChannel D c depth step a levels = .ok out ∧ out.IsSquare n ∧
      ∀ received : GrayImage, received.IsSquare n → RecordReadable n levels a t out.pixels received.pixels →
        ∀ gs : List F, equalizedFeatures D received a = .ok gs → (∀ g ∈ gs, fin g ∧ |val g| ≤ K * val step) →
          (∃ i, ∃ (hi : i < fs.length) (hi' : i < gs.length), noticedFrom F K * val step < |val gs[i] - val fs[i]|) →
          ∀ q', threeBitDequantization gs p step = .ok q' →
            authenticateChannel D received depth step a levels = .ok true →
              HashCollision ((Ed25519.rfc8032.sign (builtinSecret ++ builtinPublic) (vecI64ToBytes q)).take 32) builtinPublic
                (vecI64ToBytes q') (vecI64ToBytes q) := by
  obtain ⟨out, h1, h2, h3⟩ := tampered_channel_verdict D hD c n levels a depth step t hc hg hs hsup hal hfit ha fs hf q p hq
  refine ⟨out, h1, h2, ?_⟩
  rintro received hn hread gs hgs hgf ⟨i, hi, hi', hfar⟩ q' hdq hacc
  obtain ⟨gs2, q2, e1, e2, e3⟩ := (h3 received hn hread a true).mp hacc
  rw [hgs] at e1
  cases e1
  rw [hdq] at e2
  cases e2
  have hne : q' ≠ q := by
    rintro rfl
    have := (dequantization_notices step hstep K hK fs gs hfs hgf q' p hq hdq).2 i hi hi'
    linarith
  have hbytes : vecI64ToBytes q' ≠ vecI64ToBytes q := fun h => hne (cells_bytes_injective fs gs step q q' p p hq hdq h)
  have hk := (actual_contracts D hD).2.2.verifies (vecI64ToBytes q)
  rw [hD.2] at e3 hk
  exact verify_collides _ _ _ hbytes e3.symm hk

end

theorem far_apart (A B X Y d e : ℝ) (h1 : |X - A| ≤ e) (h2 : |Y - B| ≤ e) (h : d + 2 * e < |B - A|) : d < |Y - X| := by
  have i1 := abs_sub_le B Y A
  have i2 := abs_sub_le Y X A
  rw [abs_sub_comm B Y] at i1
  linarith

/-- The cell of a finite value of moderate size is not the least `i64`. -/
theorem quantizeOne_ne_min {F : Type} [FloatOps F] [LawfulFloat F] (step f : F) (hs : GoodDepth step) (hf : fin f)
    (h : |val f| ≤ 2 ^ 32 * val step) : quantizeOne step f ≠ i64Min := by
  have hS := hs.pos
  have hx : |val f / val step| ≤ 2 ^ 32 := by rw [abs_div, abs_of_pos hS, div_le_iff₀ hS]; exact h
  obtain ⟨_, h2⟩ := quantizeOne_near step f hs hf (2 ^ 32) (by norm_num) hx
  have hu := u_mul_le (F := F) (2 ^ 32 + 1) (by norm_num) (by norm_num)
  intro e
  rw [e] at h2
  obtain ⟨h3, _⟩ := abs_le.mp hx
  unfold i64Min at h2
  push_cast at h2
  norm_num at h2 h3 hu
  linarith

/-- Features of the program: finite, of moderate size, close to the exact moments of the equalised picture. -/
theorem program_feature_list (M : Libm F64) (hM : M.Lawful) (c : GrayImage) (n a : Nat) (s : ℚ) (hc : c.IsSquare n) (hn2 : 2 ≤ n)
    (hn : n ≤ 2 ^ 14) (ha1 : 1 ≤ a) (ha : a ≤ 11) (hs1 : 1 / 2 ^ 20 ≤ (s : ℝ)) :
    ∃ fs, equalizedFeatures (Deps.program M) c a = .ok fs ∧ fs.length = a ∧
      (∀ f ∈ fs, fin f ∧ |val f| ≤ 2 ^ 32 * val (F64.fin s)) ∧
      ∀ k (hk : k < fs.length),
        |val fs[k] - ‖specMoment n (pixelReal (equalizedPixels (Deps.program M) c)) (2 * a - 1) (2 * k + 1)‖| ≤ 1 / 400 := by
  have hsq : (equalizedPixels (Deps.program M) c).IsSquare n := ⟨hc.1, hc.2.1⟩
  obtain ⟨fs, h1, h2, h3⟩ := features_f64_accurate M hM n a _ ha1 ha hn2 hn hsq
  obtain ⟨fs', h1', _, hr⟩ := features_f64_range M hM n a _ ha1 ha hn2 hn hsq
  rw [h1] at h1'
  cases h1'
  have ha' : (a : ℝ) ≤ 11 := by exact_mod_cast ha
  have hpi3 := Real.pi_gt_three
  refine ⟨fs, (equalizedFeatures_computed _ M (program_computed M) hM c n a hn2 hn ha1 ha hc).trans h1, h2, ?_, ?_⟩
  · intro f hf
    obtain ⟨y, hy, hy1, hy2⟩ := hr _ hf
    rw [hy]
    refine ⟨trivial, ?_⟩
    show |(y : ℝ)| ≤ 2 ^ 32 * (s : ℝ)
    have hb : 510 * (a : ℝ) / Real.pi ≤ 1870 := by
      rw [div_le_iff₀ Real.pi_pos]
      linarith
    have hbig : (4096 : ℝ) ≤ 2 ^ 32 * s := by
      calc (4096 : ℝ) = 2 ^ 32 * (1 / 2 ^ 20) := by norm_num
        _ ≤ 2 ^ 32 * s := mul_le_mul_of_nonneg_left hs1 (by norm_num)
    rw [abs_le]
    constructor <;> linarith
  · intro k hk
    obtain ⟨x, hx, hxe⟩ := h3 k hk
    rw [hx]
    exact hxe

/-- C84: the program with all its libraries. A picture is marked; a received picture from which the record can still be read gets an
answer, and if the modulus of one of its `a` Zernike moments (after equalisation) differs from that of the source by more than one and
a half steps, and a small allowance for rounding, the answer is not `true`, unless the restored cells and the signed cells are a
collision of the hash. -/
theorem program_notices (M : Libm F64) (hM : M.Lawful) (c : GrayImage) (n levels a : Nat) (x s : ℚ) (t : ℝ)
    (hc : c.IsSquare n) (hg : EmbedGeometry n levels c.pixels) (hl : levels ≤ 3) (hn : n ≤ 2 ^ 14)
    (hsup : SupportedCapacity (domainBytes n levels)) (hal : blockBytes (domainBytes n levels) ∣ domainBytes n levels)
    (hfit : recordBytes a + 4 ≤ domainBytes n levels / 2) (ha1 : 1 ≤ a) (ha : a ≤ 11)
    (ht : 0 ≤ t) (hd : 2 ^ (levels + 1) * (2 * t + 1) < (1 - 1 / 2 ^ 24) * (x : ℝ))
    (hpix : ∀ i < n, ∀ j < n, (3 / 4 + 1 / 2 ^ 26) * (x : ℝ) / 2 ^ levels ≤ ((c.pixels.get i j).toNat : ℝ) ∧
      ((c.pixels.get i j).toNat : ℝ) ≤ 255 - (3 / 4 + 1 / 2 ^ 26) * (x : ℝ) / 2 ^ levels)
    (hs1 : 1 / 2 ^ 20 ≤ (s : ℝ)) (hs2 : (s : ℝ) ≤ 2 ^ 100) :
    ∃ out fs q p, watermarkChannel (Deps.program M) c (.fin x) (.fin s) a levels = .ok out ∧ out.IsSquare n ∧
      equalizedFeatures (Deps.program M) c a = .ok fs ∧ threeBitQuantization fs (.fin s) = .ok (q, p) ∧
      ∀ received : GrayImage, received.IsSquare n → RecordReadable n levels a t out.pixels received.pixels →
        ∃ gs q' b, equalizedFeatures (Deps.program M) received a = .ok gs ∧ threeBitDequantization gs p (.fin s) = .ok q' ∧
          authenticateChannel (Deps.program M) received (.fin x) (.fin s) a levels = .ok b ∧
          ((∃ k < a, (3 / 2 + 1 / 2 ^ 17) * (s : ℝ) + 1 / 200 <
            |‖specMoment n (pixelReal (equalizedPixels (Deps.program M) received)) (2 * a - 1) (2 * k + 1)‖ -
              ‖specMoment n (pixelReal (equalizedPixels (Deps.program M) c)) (2 * a - 1) (2 * k + 1)‖|) →
            b = true → HashCollision ((Ed25519.rfc8032.sign (builtinSecret ++ builtinPublic) (vecI64ToBytes q)).take 32)
              builtinPublic (vecI64ToBytes q') (vecI64ToBytes q)) := by
  have hs0 : (0 : ℝ) < s := lt_of_lt_of_le (by positivity) hs1
  have hn2 : 2 ≤ n := by
    have h2 := hg.capacity
    unfold domainBytes at h2
    rcases Nat.lt_or_ge n 2 with h | h
    · have : n / 2 ^ levels ≤ n := Nat.div_le_self _ _
      have : (n / 2 ^ levels) * (n / 2 ^ levels) ≤ 1 * 1 := Nat.mul_le_mul (by omega) (by omega)
      omega
    · exact h
  have hgood : GoodDepth (F64.fin s) := ⟨trivial, by
    show (1 : ℝ) / 2 ^ 100 ≤ (s : ℝ)
    refine le_trans ?_ hs1
    norm_num, hs2⟩
  have vstep : val (F64.fin s) = (s : ℝ) := rfl
  obtain ⟨fs, hf, hfl, hfb, hfm⟩ := program_feature_list M hM c n a s hc hn2 hn ha1 ha hs1
  have hq := threeBitQuantization_ok fs (.fin s) fun f hf' => quantizeOne_ne_min _ f hgood (hfb f hf').1 (hfb f hf').2
  have hsig := signalOK_double n levels hl _ x t ht hd hpix
  obtain ⟨out, h1, h2, h3⟩ := tampered_channel_verdict _ (program_actual M) c n levels a (.fin x) (.fin s) t hc hg hsig hsup hal hfit
    (by omega) fs hf _ _ hq
  obtain ⟨out', h1', _, h4⟩ := tampered_channel_noticed _ (program_actual M) c n levels a (.fin x) (.fin s) t hc hg hsig hsup hal hfit
    (by omega) hgood (2 ^ 32) (by norm_num) fs hf hfb _ _ hq
  rw [h1] at h1'
  cases h1'
  refine ⟨out, fs, _, _, h1, h2, hf, hq, fun received hr hread => ?_⟩
  obtain ⟨gs, hgf, hgl, hgb, hgm⟩ := program_feature_list M hM received n a s hr hn2 hn ha1 ha hs1
  have hpl : (fs.flatMap (bits3 (.fin s))).length = 3 * a := by
    rw [← hfl]
    clear hq h3 h4 hfb hfm hf hfl
    induction fs with
    | nil => rfl
    | cons f fs ih => rw [List.flatMap_cons, List.length_append, ih]; simp [bits3]; ring
  have hdq := threeBitDequantization_ok gs (fs.flatMap (bits3 (.fin s))) (.fin s)
    (fun g hg' => quantizeOne_ne_min _ g hgood (hgb g hg').1 (hgb g hg').2) (by rw [hpl]; omega) (by rw [hpl]; omega)
  refine ⟨gs, _, _, hgf, hdq, (h3 received hr hread a _).mpr ⟨gs, _, hgf, hdq, rfl⟩, ?_⟩
  rintro ⟨k, hk, hfar⟩ hb
  refine h4 received hr hread gs hgf hgb ⟨k, by omega, by omega, ?_⟩ _ hdq ?_
  · have e1 := hfm k (by omega)
    have e2 := hgm k (by omega)
    rw [vstep]
    have e3 : noticedFrom F64 (2 ^ 32) * (s : ℝ) ≤ (3 / 2 + 1 / 2 ^ 17) * s :=
      mul_le_mul_of_nonneg_right noticedFrom_double hs0.le
    exact far_apart _ _ _ _ _ _ e1 e2 (by linarith)
  · rw [← hb]
    exact (h3 received hr hread a _).mpr ⟨gs, _, hgf, hdq, rfl⟩

end Sia
