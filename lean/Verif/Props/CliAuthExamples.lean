import Verif.Props.CliAuthProps

/-! A world in which the tool marks two files and what it wrote authenticates (C69). -/
namespace Sia
open LawfulFloat

/-- Exact moments of an image equalised to one grey. -/
noncomputable def Deps.flatReal : Deps ℝ where
  ldpc := Ldpc.toy
  ed := Ed25519.toy
  equalize c := c.raw.map fun _ => 128
  momentAbs order index image := match zernikeMoment order index image with
    | .ok m => ‖m‖
    | .error _ => 0
  equalize_length c := by simp

theorem Deps.flatReal_exact : Deps.flatReal.Exact := by
  intro order index image m h
  unfold Deps.flatReal
  dsimp only
  rw [h]

theorem map_const_eq (l l' : List UInt8) (h : l.length = l'.length) :
    l.map (fun _ => (128 : UInt8)) = l'.map fun _ => 128 := by
  rw [List.map_const', List.map_const', h]

theorem flat_equalizes (c c' : GrayImage) (n : Nat) (h : c.IsSquare n) (h' : c'.IsSquare n) :
    equalizedFeatures Deps.flatReal c 11 = equalizedFeatures Deps.flatReal c' 11 := by
  unfold equalizedFeatures
  have e : Deps.flatReal.equalize c = Deps.flatReal.equalize c' := map_const_eq _ _ (by rw [h.2.2, h'.2.2])
  rw [e, h.1, h.2.1, h'.1, h'.2.1]

theorem flat_features : ∃ fs : List ℝ, (∀ c : GrayImage, c.IsSquare 512 → equalizedFeatures Deps.flatReal c 11 = .ok fs) ∧
    ∀ f ∈ fs, |f| ≤ 2 ^ 20 := by
  obtain ⟨fs, hfs⟩ : ∃ fs, equalizedFeatures Deps.flatReal testChannel 11 = .ok fs := by
    rw [equalizedFeatures_exact _ Deps.flatReal_exact _ 512 11 (by norm_num) (by norm_num) testChannel_square,
      features_square 512 _ 11 (by norm_num) (by norm_num) ⟨rfl, rfl⟩]
    exact ⟨_, rfl⟩
  refine ⟨fs, fun c hc => ?_, ?_⟩
  · rw [← hfs]
    exact flat_equalizes c testChannel 512 hc testChannel_square
  · rw [equalizedFeatures_exact _ Deps.flatReal_exact _ 512 11 (by norm_num) (by norm_num) testChannel_square] at hfs
    intro f hf
    refine (features_bounded_255 512 _ 11 (by norm_num) (by norm_num) ⟨rfl, rfl⟩ fs hfs f hf).trans ?_
    rw [div_le_iff₀ Real.pi_pos]
    have := Real.two_le_pi
    push_cast
    nlinarith

/-- A world with a lossless codec for 512 x 512 pictures: the red, then the green, then the blue bytes; the content `[7]` is the
test image. -/
noncomputable def losslessWorld : World ℝ where
  Loc := PathStr
  decEq := inferInstance
  deps := Deps.flatReal
  resolve := id
  decode _ bytes := if bytes = [7] then some testImage else some ⟨.Rgb8, 512, 512, fun x y =>
    ⟨bytes.getD (y * 512 + x) 0, bytes.getD (262144 + (y * 512 + x)) 0, bytes.getD (524288 + (y * 512 + x)) 0, 255⟩⟩
  formatOf _ := some 0
  encode _ image := ([[1]] ++ [(image.plane Rgba.r).raw ++ (image.plane Rgba.g).raw ++ (image.plane Rgba.b).raw], true)
  creatable _ := true
  blocked _ := false
  folder o := some o

theorem flat_marks : ∃ out, watermark Deps.flatReal testImage (FloatOps.ofInt 100) (FloatOps.ofInt 1) 11 = .ok out := by
  obtain ⟨out, h1, h2, h3⟩ := marked_channel_authenticates_pixels Deps.flatReal Deps.flatReal_exact Ldpc.toy_decodesClean
    (Ed25519.toy_keyPair _ _ rfl rfl) testChannel 512 3 11 100 1 0 testChannel_square testChannel_geometry
    (by norm_num) (by norm_num) (by
      intro i hi j hj
      obtain ⟨a, b⟩ := testChannel_range i hi j hj
      have a' : (100 : ℝ) ≤ ((testChannel.pixels.get i j).toNat : ℝ) := by exact_mod_cast a
      have b' : ((testChannel.pixels.get i j).toNat : ℝ) ≤ 131 := by exact_mod_cast b
      constructor <;> linarith) (by decide) (by decide) (by decide) (by decide) (by decide) (by norm_num)
  obtain ⟨e1, e2, e3⟩ := testImage_plane
  have hl : (FloatOps.ofInt 100 : ℝ) = 100 := by show (((100 : ℤ)) : ℝ) = 100; norm_num
  have hs : (FloatOps.ofInt 1 : ℝ) = 1 := by show (((1 : ℤ)) : ℝ) = 1; norm_num
  rw [hl, hs]
  exact (watermark_succeeds_iff Deps.flatReal testImage 100 1 11).mpr
    ⟨⟨out, e1 ▸ h1⟩, fun _ => ⟨⟨out, e2 ▸ h1⟩, ⟨out, e3 ▸ h1⟩⟩⟩

theorem lossless_seven (path : PathStr) : losslessWorld.decode path [7] = some testImage := by
  unfold losslessWorld
  dsimp only
  rw [if_pos rfl]

theorem plane_congr (im im' : DynamicImage) (s : Rgba → UInt8) (hw : im.width = im'.width) (hh : im.height = im'.height)
    (h : ∀ k < im'.width * im'.height, s (im.pixel (k % im'.width) (k / im'.width)) = s (im'.pixel (k % im'.width) (k / im'.width))) :
    im.plane s = im'.plane s := by
  unfold DynamicImage.plane
  rw [hw, hh]
  congr 1
  exact List.map_congr_left fun k hk => h k (List.mem_range.mp hk)

theorem three_parts (n n2 : Nat) (hn : n2 = n + n) (l1 l2 l3 : List UInt8) (g1 : l1.length = n) (g2 : l2.length = n) (k : Nat)
    (hk : k < n) : (l1 ++ l2 ++ l3).getD k 0 = l1.getD k 0 ∧ (l1 ++ l2 ++ l3).getD (n + k) 0 = l2.getD k 0 ∧
      (l1 ++ l2 ++ l3).getD (n2 + k) 0 = l3.getD k 0 := by
  subst hn
  simp only [List.getD_eq_getElem?_getD]
  refine ⟨?_, ?_, ?_⟩
  · rw [List.getElem?_append_left (by rw [List.length_append]; omega), List.getElem?_append_left (by omega)]
  · rw [List.getElem?_append_left (by rw [List.length_append]; omega), List.getElem?_append_right (by omega), g1,
      Nat.add_sub_cancel_left]
  · rw [List.getElem?_append_right (by rw [List.length_append]; omega), List.length_append, g1, g2, Nat.add_sub_cancel_left]

/-- What was written is read back: the planes of a 512 x 512 image. -/
theorem lossless_plane (m : DynamicImage) (hw : m.width = 512) (hh : m.height = 512) (path : PathStr) (s : Rgba → UInt8)
    (hs : s ∈ [Rgba.r, Rgba.g, Rgba.b]) : ∃ got, losslessWorld.decode path
      ((m.plane Rgba.r).raw ++ (m.plane Rgba.g).raw ++ (m.plane Rgba.b).raw) = some got ∧ got.plane s = m.plane s := by
  have hlen : ∀ s, (m.plane s).raw.length = 262144 := by
    intro s; unfold DynamicImage.plane; rw [List.length_map, List.length_range, hw, hh]
  have hne : (m.plane Rgba.r).raw ++ (m.plane Rgba.g).raw ++ (m.plane Rgba.b).raw ≠ [7] := by
    intro h
    have := congrArg List.length h
    rw [List.length_append, List.length_append, hlen, hlen, hlen] at this
    simp at this
  refine ⟨_, by show (if _ then _ else _) = _; rw [if_neg hne], ?_⟩
  have hget : ∀ s k, k < 262144 → (m.plane s).raw.getD k 0 = s (m.pixel (k % 512) (k / 512)) := by
    intro s k hk
    unfold DynamicImage.plane
    dsimp only
    rw [List.getD_eq_getElem?_getD, List.getElem?_map, List.getElem?_range (by rw [hw, hh]; exact hk), hw]
    rfl
  have hidx : ∀ k, k / 512 * 512 + k % 512 = k := by intro k; omega
  refine plane_congr _ m s hw.symm hh.symm ?_
  · rw [hw, hh]
    intro k hk
    have hk : k < 262144 := hk
    have h3 := fun (l1 l2 l3 : List UInt8) g1 g2 => three_parts 262144 524288 rfl l1 l2 l3 g1 g2 k hk
    obtain ⟨p1, p2, p3⟩ := h3 (m.plane Rgba.r).raw (m.plane Rgba.g).raw (m.plane Rgba.b).raw (hlen _) (hlen _)
    simp only [List.mem_cons, List.not_mem_nil, or_false] at hs
    rcases hs with rfl | rfl | rfl
    · show ((m.plane Rgba.r).raw ++ (m.plane Rgba.g).raw ++ (m.plane Rgba.b).raw).getD (k / 512 * 512 + k % 512) 0 = _
      rw [hidx, p1, hget _ _ hk]
    · show ((m.plane Rgba.r).raw ++ (m.plane Rgba.g).raw ++ (m.plane Rgba.b).raw).getD (262144 + (k / 512 * 512 + k % 512)) 0 = _
      rw [hidx, p2, hget _ _ hk]
    · show ((m.plane Rgba.r).raw ++ (m.plane Rgba.g).raw ++ (m.plane Rgba.b).raw).getD (524288 + (k / 512 * 512 + k % 512)) 0 = _
      rw [hidx, p3, hget _ _ hk]

theorem run_parts {A B : Type} (r r' : A × Option B) (P : A → Prop) (h : r = r') (h1 : r'.2 = none) (h2 : P r'.1) :
    ∃ es, r = (es, none) ∧ P es := ⟨r'.1, h.trans (Prod.ext rfl h1), h2⟩

/-- Two files, marked by one run started from a command line; both outputs authenticate. -/
theorem losslessWorld_authenticates :
    ∃ es, cliRun losslessWorld (fun _ => some [7]) ["-s".toList, "wm".toList, "in/a.png".toList, "in/b.png".toList, "-oout".toList] =
      (es, none) ∧
    ∀ i ∈ ["in/a.png".toList, "in/b.png".toList], ∃ stem ext bytes got, NamedAs i stem ext ∧
      losslessWorld.after (fun _ => some [7]) es (losslessWorld.resolve (OutName stem ext "wm".toList (some "out".toList))) = some bytes ∧
      losslessWorld.decode (OutName stem ext "wm".toList (some "out".toList)) bytes = some got ∧
      ∀ s ∈ [Rgba.r, Rgba.g, Rgba.b], ∀ c', IsChannel got s c' →
        authenticateChannel Deps.flatReal c' (100 : ℝ) 1 11 3 = .ok true := by
  have hl : (FloatOps.ofInt 100 : ℝ) = 100 := by show (((100 : ℤ)) : ℝ) = 100; norm_num
  have hs1 : (FloatOps.ofInt 1 : ℝ) = 1 := by show (((1 : ℤ)) : ℝ) = 1; norm_num
  have hstep : GoodDepth (FloatOps.ofInt 1 : ℝ) := by
    rw [hs1]
    exact ⟨trivial, by show (1 : ℝ) / 2 ^ 100 ≤ 1; norm_num, by show (1 : ℝ) ≤ 2 ^ 100; norm_num⟩
  obtain ⟨out, hout⟩ := flat_marks
  obtain ⟨ow, oh, _⟩ := watermark_keeps_shape_and_alpha Deps.flatReal testImage out _ _ 11 hout
  obtain ⟨feats, hfeats, hbound⟩ := flat_features
  set final := (out.plane Rgba.r).raw ++ (out.plane Rgba.g).raw ++ (out.plane Rgba.b).raw with hfinal
  have hclean : CleanBatch losslessWorld "wm".toList (some "out".toList) (fun _ => some [7])
      ["in/a.png".toList, "in/b.png".toList] [("out/a-wm.png".toList, final), ("out/b-wm.png".toList, final)] := by
    refine ⟨?_, ?_, ?_⟩
    · refine .cons ⟨[7], rfl, testImage, out, "a".toList, "png".toList, 0, [[1]], lossless_seven _, hout, ⟨by decide, by decide, by decide⟩,
        by show ("out/a-wm.png".toList : List Char) = OutName "a".toList "png".toList "wm".toList (some "out".toList); decide,
        rfl, rfl, rfl⟩ (.cons ⟨[7], rfl, testImage, out, "b".toList, "png".toList, 0, [[1]], lossless_seven _, hout,
        ⟨by decide, by decide, by decide⟩,
        by show ("out/b-wm.png".toList : List Char) = OutName "b".toList "png".toList "wm".toList (some "out".toList); decide,
        rfl, rfl, rfl⟩ .nil)
    · show ["out/a-wm.png".toList, "out/b-wm.png".toList].Nodup
      decide
    · intro r hr i hi
      simp only [List.mem_cons, List.not_mem_nil, or_false] at hr hi
      rcases hr with rfl | rfl <;> rcases hi with rfl | rfl
      · exact (by decide : ("out/a-wm.png".toList : List Char) ≠ "in/a.png".toList)
      · exact (by decide : ("out/a-wm.png".toList : List Char) ≠ "in/b.png".toList)
      · exact (by decide : ("out/b-wm.png".toList : List Char) ≠ "in/a.png".toList)
      · exact (by decide : ("out/b-wm.png".toList : List Char) ≠ "in/b.png".toList)
  have hready : SourceReady Deps.flatReal (FloatOps.ofInt 100) testChannel 512 0 (2 ^ 20) := by
    refine ⟨testChannel_square, testChannel_geometry, ?_, by decide, by decide, by decide, feats, hfeats _ testChannel_square, ?_⟩
    · rw [hl]
      obtain ⟨a1, a2, a3, a4, a5⟩ := testChannel_signal
      exact ⟨a1, a2, le_rfl, lt_of_le_of_lt (by norm_num) a4, a5⟩
    · intro f hf
      refine ⟨trivial, ?_, fun k => ?_⟩
      · rw [hs1]; show |f| ≤ 2 ^ 20 * 1; rw [mul_one]; exact hbound f hf
      · show (0 : ℝ) * _ ≤ _; rw [zero_mul]; exact abs_nonneg _
  have key := cli_batch_authenticates losslessWorld Ldpc.toy_decodesClean (Ed25519.toy_keyPair _ _ rfl rfl) hstep "wm".toList
    (some "out".toList) (fun _ => some [7]) _ _ hclean 512 0 (2 ^ 20) (by norm_num) (by norm_num) (by
      intro i hi content image marked stem ext format contents fin' h1 h2 h3 h4 h5 h6
      cases h1
      rw [lossless_seven] at h2
      cases h2
      have h3' : watermark Deps.flatReal testImage (FloatOps.ofInt 100) (FloatOps.ofInt 1) 11 = .ok marked := h3
      rw [hout] at h3'
      cases h3'
      have h7 : ([[1]] : List (List UInt8)) ++ [final] = contents ++ [fin'] := (Prod.mk.inj h6).1
      obtain ⟨_, h8⟩ := List.append_inj' h7 rfl
      have h8 : final = fin' := by simpa using h8
      subst h8
      obtain ⟨got, hg, _⟩ := lossless_plane out ow oh (OutName stem ext "wm".toList (some "out".toList)) Rgba.r (by simp)
      refine ⟨got, hg, ?_⟩
      intro s hs c m c' hc hm hc'
      obtain ⟨got', hg', hp⟩ := lossless_plane out ow oh (OutName stem ext "wm".toList (some "out".toList)) s hs
      rw [hg] at hg'
      cases hg'
      obtain rfl := (isChannel_iff _ _ _).1 hc
      obtain rfl := (isChannel_iff _ _ _).1 hm
      obtain rfl := (isChannel_iff _ _ _).1 hc'
      have hsrc : testImage.plane (processedSample testImage s) = testChannel := by
        have hps : processedSample testImage s = s := if_pos (by decide)
        rw [hps]
        obtain ⟨e1, e2, e3⟩ := testImage_plane
        simp only [List.mem_cons, List.not_mem_nil, or_false] at hs
        rcases hs with rfl | rfl | rfl
        · exact e1
        · exact e2
        · exact e3
      have hsq : (out.plane s).IsSquare 512 := ⟨ow, oh, by
        unfold DynamicImage.plane; rw [List.length_map, List.length_range, ow, oh]; rfl⟩
      rw [hp, hsrc]
      refine ⟨hready, hsq, ⟨⟨hsq.1, hsq.2.1⟩, fun i _ j _ => by rw [sub_self, abs_zero]⟩, feats, feats,
        hfeats _ testChannel_square, hfeats _ hsq, fun g _ => ⟨trivial, fun k => ?_⟩, ?_⟩
      · show (0 : ℝ) * _ ≤ _; rw [zero_mul]; exact abs_nonneg _
      · rw [List.forall₂_same]
        intro x _
        rw [sub_self, abs_zero, hs1]
        exact zero_le_one)
  have hrun : cliRun losslessWorld (fun _ => some [7])
      ["-s".toList, "wm".toList, "in/a.png".toList, "in/b.png".toList, "-oout".toList] =
      processInputs losslessWorld "wm".toList (some "out".toList) (fun _ => some [7]) ["in/a.png".toList, "in/b.png".toList] := by
    have hc : CommandLine [.suffix "wm".toList, .file "in/a.png".toList, .file "in/b.png".toList, .output "out".toList]
        ["-s".toList, "wm".toList, "in/a.png".toList, "in/b.png".toList, "-oout".toList] :=
      .more _ _ _ _ (.separate 0 's' .suffix _ .s) (.more [_] _ [_] _ (.file _ (.inl (by decide))) (.more [_] _ [_] _ (.file _ (.inl (by decide)))
        (.more _ _ _ _ (.joined 0 'o' .output "out".toList .o (by decide)) .done)))
    exact (run_processes losslessWorld _ _ _ hc "wm".toList (by decide) (by decide) rfl).2 "out".toList "out".toList rfl rfl rfl
  obtain ⟨k1, k2⟩ := key
  refine run_parts _ _ (fun es => ∀ i ∈ ["in/a.png".toList, "in/b.png".toList], ∃ stem ext bytes got, NamedAs i stem ext ∧
      losslessWorld.after (fun _ => some [7]) es (losslessWorld.resolve (OutName stem ext "wm".toList (some "out".toList))) = some bytes ∧
      losslessWorld.decode (OutName stem ext "wm".toList (some "out".toList)) bytes = some got ∧
      ∀ s ∈ [Rgba.r, Rgba.g, Rgba.b], ∀ c', IsChannel got s c' →
        authenticateChannel Deps.flatReal c' (100 : ℝ) 1 11 3 = .ok true) hrun k1 ?_
  intro i hi
  obtain ⟨stem, ext, bytes, got, g1, g2, g3, g4⟩ := k2 i hi
  refine ⟨stem, ext, bytes, got, g1, g2, g3, fun s hs c' hc' => ?_⟩
  have g5 := g4 s hs c' hc'
  rw [hl, hs1] at g5
  exact g5

end Sia
