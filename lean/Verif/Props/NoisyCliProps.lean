import Verif.Props.NoisyExamples
import Verif.Props.GenerationExamples

/-! C92 for the tool: running it on its own output in a lossy format. -/
namespace Sia
open FloatOps LawfulFloat Finset

/-- C92: a file that descends from an original through any number of runs of the tool, each reading what an earlier one wrote, in formats
that may lose up to 2.5 levels in the mean of a block: the mean of a block that carries the record is at most 792/64 = 12.375 levels
away from the original's, after any number of runs (9.875 by the marking, 2.5 by the last loss), if the pictures have room in that block. -/
theorem cli_lossy_generations (W : World F64) (P : PathStr → Prop) (hP : LossyOn W P) (s : Rgba → UInt8) (hs : s ∈ [Rgba.r, Rgba.g, Rgba.b])
    (i j : Nat) (x y z : PathStr × List UInt8)
    (h : Relation.ReflTransGen (fun a b => WrittenFor W a b ∧ P b.1 ∧ RoomIn W s i j a) x y) (hz : WrittenFor W y z) (hPz : P z.1)
    (hroom : RoomIn W s i j y) (image : DynamicImage) (hx : W.decode x.1 x.2 = some image) (n : Nat) (hw : image.width = n)
    (hh : image.height = n) (hi : i < n) (hj : j < n) (ho : j / 8 * (n / 8) + i / 8 < 8 * encodedLength (domainBytes n 3) (recordBytes 11)) :
    ∃ got, W.decode z.1 z.2 = some got ∧ got.width = n ∧ got.height = n ∧ |(sampleSum got s i j : ℤ) - sampleSum image s i j| ≤ 792 := by
  have hn : 0 < n := by omega
  have hg : GreyPixels image := hP.grey _ _ _ hx
  have hstep : ∀ a b : PathStr × List UInt8, WrittenFor W a b → P b.1 → ∀ im, W.decode a.1 a.2 = some im → im.width = n → im.height = n → GreyPixels im →
      ∃ marked got, watermark W.deps im (F64.fin 100) (F64.fin 1) 11 = .ok marked ∧ W.decode b.1 b.2 = some got ∧
        GreyPixels got ∧ got.width = n ∧ got.height = n ∧ |(sampleSum got s i j : ℤ) - sampleSum marked s i j| ≤ 160 := by
    intro a b hab hPb im him iw ih ig
    obtain ⟨suffix, folder, stem, ext, hn1, hb, im', marked, stem', ext', format, contents, e1, e2, e3, e4, e5, e6, e7⟩ := hab
    rw [him] at e1
    obtain rfl := Option.some.inj e1
    have hne : some (stem', ext') = some (stem, ext) := ((namedAs_iff _ _ _).mp e3).symm.trans ((namedAs_iff _ _ _).mp hn1)
    cases hne
    obtain ⟨k1, k2, _⟩ := watermark_keeps_shape_and_alpha _ _ _ _ _ _ e2
    obtain ⟨got, g1, g2, g3, g4⟩ := hP.reads b.1 format marked contents b.2 hPb (by rw [hb]; exact e6) e7
    rw [ofInt_100, ofInt_1] at e2
    obtain ⟨_, _, _, h8⟩ := marked_plane n W.deps im marked (F64.fin 1) hn iw ih ig e2 s hs
    exact ⟨marked, got, e2, g1, hP.grey _ _ _ g1, (g2.trans k1).trans iw, (g3.trans k2).trans ih,
      g4 s hs i j (by rw [k1, iw]; omega) (by rw [k2, ih]; omega)⟩
  have hbefore : ∃ before, W.decode y.1 y.2 = some before ∧ before.width = n ∧ before.height = n ∧
      Relation.ReflTransGen (LossyGeneration n s i j) image before := by
    clear hz hroom
    induction h with
    | refl => exact ⟨image, hx, hw, hh, .refl⟩
    | tail _ hab ih =>
      obtain ⟨im, i1, i2, i3, i4⟩ := ih
      obtain ⟨marked, got, g1, g2, g3, g4, g5, g6⟩ := hstep _ _ hab.1 hab.2.1 im i1 i2 i3 (hP.grey _ _ _ i1)
      refine ⟨got, g2, g4, g5, i4.tail ⟨W.deps, F64.fin 1, marked, ?_, g1, g3, g4, g5, g6⟩⟩
      intro i' hi' j' hj' hb
      exact hab.2.2 im i1 i' (by rw [i2]; exact hi') j' (by rw [i3]; exact hj') hb
  obtain ⟨before, b1, b2, b3, b4⟩ := hbefore
  obtain ⟨marked, got, g1, g2, g3, g4, g5, g6⟩ := hstep _ _ hz hPz before b1 b2 b3 (hP.grey _ _ _ b1)
  have key := lossy_generations n image before marked hn hw hh hg s hs i j hi hj ho b4 W.deps (F64.fin 1)
    (fun i' hi' j' hj' hb => hroom before b1 i' (by rw [b2]; exact hi') j' (by rw [b3]; exact hj') hb) g1
  refine ⟨got, g2, g4, g5, ?_⟩
  rw [abs_le] at key g6 ⊢
  omega

open Classical in
/-- A world whose only format makes pictures two levels darker. -/
noncomputable def dimWorld (M : Libm F64) : World F64 :=
  { plainWorld M with encode := fun _ image => ([] ++ [plainBytes (dimmed image)], true) }

/-- Dimming changes the sum of a block by at most 128. -/
theorem dimmed_sum (image : DynamicImage) (s : Rgba → UInt8) (hs : s ∈ [Rgba.r, Rgba.g, Rgba.b]) (x y : Nat) :
    |(sampleSum (dimmed image) s x y : ℤ) - sampleSum image s x y| ≤ 128 := by
  have key : ∀ v : UInt8, (UInt8.ofNat (v.toNat - 2)).toNat ≤ v.toNat ∧ v.toNat ≤ (UInt8.ofNat (v.toNat - 2)).toNat + 2 := by
    intro v
    rw [UInt8.toNat_ofNat_of_lt' (by have := v.toNat_lt; show _ < 256; omega)]
    omega
  have kk : ∀ a b, (s ((dimmed image).pixel a b)).toNat ≤ (s (image.pixel a b)).toNat ∧
      (s (image.pixel a b)).toNat ≤ (s ((dimmed image).pixel a b)).toNat + 2 := by
    intro a b
    simp only [List.mem_cons, List.not_mem_nil, or_false] at hs
    rcases hs with rfl | rfl | rfl <;> exact key _
  have h1 : sampleSum (dimmed image) s x y ≤ sampleSum image s x y :=
    sum_le_sum fun a _ => sum_le_sum fun b _ => (kk _ _).1
  have h2 : sampleSum image s x y ≤ sampleSum (dimmed image) s x y + 128 := by
    have e : sampleSum (dimmed image) s x y + 128 =
        ∑ a ∈ range 8, ∑ b ∈ range 8, ((s ((dimmed image).pixel (x / 8 * 8 + b) (y / 8 * 8 + a))).toNat + 2) := by
      unfold sampleSum
      simp only [sum_add_distrib, sum_const, card_range, smul_eq_mul]
    rw [e]
    exact sum_le_sum fun a _ => sum_le_sum fun b _ => (kk _ _).2
  rw [abs_le]
  omega

theorem dimWorld_reads (M : Libm F64) (path : PathStr) (p : DynamicImage) :
    ∃ got, (dimWorld M).decode path (plainBytes (dimmed p)) = some got ∧ LooksLike got (dimmed p) ∧ got.color = .Rgb8 :=
  plainWorld_reads M path (dimmed p)

theorem dimWorld_lossy (M : Libm F64) : LossyOn (dimWorld M) fun _ => True where
  reads := by
    intro path format picture contents final _ _ he
    have he' : ([] ++ [plainBytes (dimmed picture)], true) = (contents ++ [final], true) := he
    have hf : plainBytes (dimmed picture) = final := by
      have := (List.append_inj' (Prod.mk.inj he').1 rfl).2
      exact (List.cons.inj this).1
    obtain ⟨got, g1, ⟨g2, g3, g4⟩, _⟩ := dimWorld_reads M path picture
    refine ⟨got, hf ▸ g1, g2, g3, fun s hs x y hx hy => ?_⟩
    have e : sampleSum got s x y = sampleSum (dimmed picture) s x y := by
      unfold sampleSum
      refine sum_congr rfl fun p hp => sum_congr rfl fun q hq => ?_
      have hp := mem_range.mp hp
      have hq := mem_range.mp hq
      exact congrArg UInt8.toNat (g4 s hs _ (show _ < picture.width by omega) _ (show _ < picture.height by omega))
    rw [e]
    exact (dimmed_sum picture s hs x y).trans (by norm_num)
  grey := (plainWorld_lossless M).grey

/-- One run of the tool in this world. -/
theorem dimWorld_run (M : Libm F64) (hM : ∀ x y, M.hypot x y = .nan ∨ FloatOps.ge (M.hypot x y) (.fin 0) = true)
    (k n : Nat) (image : DynamicImage) (bytes : List UInt8) (hw : image.width = n) (hh : image.height = n) (h8 : 8 ∣ n) (h216 : 216 ≤ n)
    (h256 : n ≠ 256) (hd : (dimWorld M).decode (wmPath k ++ '.' :: "png".toList) bytes = some image) :
    ∃ marked, watermark (Deps.program M) image (.fin 100) (.fin 1) 11 = .ok marked ∧
      WrittenFor (dimWorld M) (wmPath k ++ '.' :: "png".toList, bytes) (wmPath (k + 1) ++ '.' :: "png".toList, plainBytes (dimmed marked)) := by
  obtain ⟨marked, hm⟩ := program_marks M hM image n (.fin 100) (.fin 1) hw hh h8 h216 h256 (by decide)
  refine ⟨marked, hm, "wm".toList, none, wmPath k, "png".toList, wmPath_named k, ?_, image, marked, wmPath k, "png".toList, 0, [], hd, ?_,
    wmPath_named k, ?_, rfl, rfl, rfl⟩
  · simp [OutName, wmPath]
  · rw [ofInt_100, ofInt_1]
    exact hm
  · simp [OutName, wmPath]

/-- C92 for the program on a concrete file: `a.png` holds the stripes; the tool is run on it and on its output, each time losing two
levels. -/
example : ∃ (bytes bytes' : List UInt8), WrittenFor (dimWorld idealLibm) ("a.png".toList, plainBytes stripes) ("a-wm.png".toList, bytes) ∧
    WrittenFor (dimWorld idealLibm) ("a-wm.png".toList, bytes) ("a-wm-wm.png".toList, bytes') ∧
    ∃ got, (dimWorld idealLibm).decode "a-wm-wm.png".toList bytes' = some got ∧
      ∀ s ∈ [Rgba.r, Rgba.g, Rgba.b], ∀ x < 512, ∀ y < 256, |(sampleSum got s x y : ℤ) - sampleSum stripes s x y| ≤ 792 := by
  have p0 : wmPath 0 ++ '.' :: "png".toList = "a.png".toList := by decide
  have p1 : wmPath 1 ++ '.' :: "png".toList = "a-wm.png".toList := by decide
  have p2 : wmPath 2 ++ '.' :: "png".toList = "a-wm-wm.png".toList := by decide
  obtain ⟨image, i1, ⟨iw, ih, ipx⟩, ic⟩ := plainWorld_reads idealLibm "a.png".toList stripes
  have hw : image.width = 512 := iw
  have hh : image.height = 512 := ih
  have hpx : ∀ s ∈ [Rgba.r, Rgba.g, Rgba.b], ∀ x < 512, ∀ y < 512, s (image.pixel x y) = s (stripes.pixel x y) := ipx
  have hsum : ∀ s ∈ [Rgba.r, Rgba.g, Rgba.b], ∀ x < 512, ∀ y < 512, sampleSum image s x y = sampleSum stripes s x y := by
    intro s hs x hx y hy
    unfold sampleSum
    refine sum_congr rfl fun a ha => sum_congr rfl fun b hb => ?_
    have ha := mem_range.mp ha
    have hb := mem_range.mp hb
    rw [hpx s hs _ (by omega) _ (by omega)]
  obtain ⟨marked, m1, m2⟩ := dimWorld_run idealLibm idealLibm_moduli 0 512 image (plainBytes stripes) hw hh ⟨64, rfl⟩ (by norm_num) (by norm_num)
    (by rw [p0]; exact i1)
  obtain ⟨k1, k2, _⟩ := watermark_keeps_shape_and_alpha _ _ _ _ _ _ m1
  obtain ⟨got1, g1, ⟨gw, gh, gpx⟩, _⟩ := dimWorld_reads idealLibm "a-wm.png".toList marked
  have gw' : got1.width = 512 := gw.trans (k1.trans hw)
  have gh' : got1.height = 512 := gh.trans (k2.trans hh)
  obtain ⟨marked', n1, n2⟩ := dimWorld_run idealLibm idealLibm_moduli 1 512 got1 (plainBytes (dimmed marked)) gw' gh' ⟨64, rfl⟩ (by norm_num)
    (by norm_num) (by rw [p1]; exact g1)
  rw [p0, p1] at m2
  rw [p1, p2] at n2
  refine ⟨_, _, m2, n2, ?_⟩
  have room : ∀ s ∈ [Rgba.r, Rgba.g, Rgba.b], ∀ x y, RoomIn (dimWorld idealLibm) s x y ("a.png".toList, plainBytes stripes) := by
    intro s hs x y im him x' hx' y' hy' _
    have e : image = im := Option.some.inj (i1.symm.trans him)
    subst e
    rw [hw] at hx'
    rw [hh] at hy'
    rw [hpx s hs x' hx' y' hy']
    exact stripes_room s hs x' y'
  have room1 : ∀ s ∈ [Rgba.r, Rgba.g, Rgba.b], ∀ x y, RoomIn (dimWorld idealLibm) s x y ("a-wm.png".toList, plainBytes (dimmed marked)) := by
    intro s hs x y im him x' hx' y' hy' _
    have e : got1 = im := Option.some.inj (g1.symm.trans him)
    subst e
    rw [gw'] at hx'
    rw [gh'] at hy'
    obtain ⟨m, a1, a2⟩ := remarking_tool 512 image marked (by norm_num) hw hh (fun h => by rw [ic] at h; cases h) s hs x' y' hx' hy'
      (fun x'' hx'' y'' hy'' _ => by rw [hpx s hs x'' hx'' y'' hy'']; exact stripes_room s hs x'' y'')
      (by rw [hsum s hs x' hx' y' hy']; exact stripes_sum_all s hs x' y') (.single ⟨_, _, _, m1⟩)
    have b := a2 x' hx' y' hy' ⟨rfl, rfl⟩
    rw [hpx s hs x' hx' y' hy'] at b
    have lo : 60 ≤ (s (stripes.pixel x' y')).toNat ∧ (s (stripes.pixel x' y')).toNat ≤ 104 := by
      simp only [List.mem_cons, List.not_mem_nil, or_false] at hs
      unfold stripes
      rcases hs with rfl | rfl | rfl <;> dsimp only
      · split_ifs <;> decide
      · decide
      · decide
    have hm := abs_le.mp a1
    have c := dimmed_sample marked s hs x' y' (by omega)
    rw [gpx s hs x' (by show x' < marked.width; rw [k1, hw]; exact hx') y' (by show y' < marked.height; rw [k2, hh]; exact hy')]
    omega
  obtain ⟨got, q1, _⟩ := dimWorld_reads idealLibm "a-wm-wm.png".toList marked'
  refine ⟨got, q1, fun s hs x hx y hy => ?_⟩
  obtain ⟨got', r1, _, _, r2⟩ := cli_lossy_generations (dimWorld idealLibm) (fun _ => True) (dimWorld_lossy _) s hs x y _ _ _
    (.single ⟨m2, trivial, room s hs x y⟩) n2 trivial (room1 s hs x y) image i1 512 hw hh hx (by omega) (by
      have e : encodedLength (domainBytes 512 3) (recordBytes 11) = 256 := by decide +kernel
      rw [e]
      omega)
  have e : got' = got := Option.some.inj (r1.symm.trans q1)
  rw [← hsum s hs x hx y (by omega), ← e]
  exact r2

end Sia
