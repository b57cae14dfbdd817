import Verif.Props.WebProps

/-! C59: what the browser shows for an image. -/
namespace Sia
open LawfulFloat

section
variable {F : Type} [FloatOps F]

/-- The four bytes at a pixel of an image as canvases store it: row by row, red, green, blue, alpha. -/
def ImageModel.PixelAt (m : ImageModel) (x y : Nat) (p : Rgba) : Prop :=
  m.data[4 * (y * m.width + x)]? = some p.r ∧ m.data[4 * (y * m.width + x) + 1]? = some p.g ∧
    m.data[4 * (y * m.width + x) + 2]? = some p.b ∧ m.data[4 * (y * m.width + x) + 3]? = some p.a

theorem getElem?_four {α : Type} (f : Nat → List α) (hf : ∀ k, (f k).length = 4) (n k r : Nat) (hk : k < n) (hr : r < 4) :
    ((List.range n).flatMap f)[4 * k + r]? = (f k)[r]? := by
  induction n with
  | zero => omega
  | succ n ih =>
    have hlen : ((List.range n).flatMap f).length = 4 * n := by
      clear ih hk
      induction n with
      | zero => rfl
      | succ n ih => rw [List.range_succ, List.flatMap_append, List.length_append, ih]; simp [hf]; omega
    rw [List.range_succ, List.flatMap_append]
    by_cases h : k < n
    · rw [List.getElem?_append_left (by omega), ih h]
    · obtain rfl : k = n := by omega
      rw [List.getElem?_append_right (by omega), hlen]
      simp

theorem rgbaBytes_length (image : DynamicImage) : (rgbaBytes image).length = 4 * (image.width * image.height) := by
  unfold rgbaBytes
  generalize image.width * image.height = n
  induction n with
  | zero => rfl
  | succ n ih => rw [List.range_succ, List.flatMap_append, List.length_append, ih]; simp; omega

theorem imageModel_pixel (image : DynamicImage) (x y : Nat) (hx : x < image.width) (hy : y < image.height) :
    (getImageModel image).PixelAt x y (image.pixel x y) := by
  have hk : y * image.width + x < image.width * image.height := by
    calc y * image.width + x < (y + 1) * image.width := by rw [Nat.add_mul]; omega
      _ ≤ image.height * image.width := Nat.mul_le_mul_right _ hy
      _ = _ := Nat.mul_comm _ _
  have e1 : (y * image.width + x) / image.width = y := by
    rw [mul_comm, Nat.mul_add_div (by omega), Nat.div_eq_of_lt hx, add_zero]
  have e2 : (y * image.width + x) % image.width = x := by
    rw [mul_comm, Nat.mul_add_mod, Nat.mod_eq_of_lt hx]
  have key := fun r hr => getElem?_four (fun k => [(image.pixel (k % image.width) (k / image.width)).r,
    (image.pixel (k % image.width) (k / image.width)).g, (image.pixel (k % image.width) (k / image.width)).b,
    (image.pixel (k % image.width) (k / image.width)).a]) (fun _ => rfl) _ _ r hk hr
  simp only [e1, e2] at key
  exact ⟨key 0 (by omega), key 1 (by omega), key 2 (by omega), key 3 (by omega)⟩

/-- C59: the library call behind the page gives a result exactly if the format is recognised, the image decodes and the
watermarking succeeds; it aborts otherwise. -/
theorem process_succeeds_iff (W : WebWorld F) (blob : List UInt8) (depth step : F) :
    (∃ p, getWatermarkingProcess W blob depth step = .ok p) ↔
      ∃ format image out, W.guess blob = some format ∧ W.decode blob = some image ∧
        watermark W.deps image depth step 11 = .ok out := by
  unfold getWatermarkingProcess getSource
  simp only [bind, Except.bind, pure, Except.pure]
  cases W.guess blob with
  | none => simp
  | some f =>
    cases W.decode blob with
    | none => simp
    | some i =>
      cases hw : watermark W.deps i depth step 11 with
      | error e => simp [hw]
      | ok o => simp [hw]

theorem process_eq (W : WebWorld F) (blob : List UInt8) (depth step : F) (p : WatermarkingProcess)
    (h : getWatermarkingProcess W blob depth step = .ok p) :
    ∃ format image out, W.guess blob = some format ∧ W.decode blob = some image ∧
      watermark W.deps image depth step 11 = .ok out ∧ p = ⟨format, getImageModel image, getImageModel out⟩ := by
  unfold getWatermarkingProcess getSource at h
  simp only [bind, Except.bind, pure, Except.pure] at h
  cases hg : W.guess blob with
  | none => rw [hg] at h; simp at h
  | some f =>
    rw [hg] at h
    cases hd : W.decode blob with
    | none => rw [hd] at h; simp at h
    | some i =>
      rw [hd] at h
      dsimp only at h
      cases hw : watermark W.deps i depth step 11 with
      | error e => rw [hw] at h; simp at h
      | ok o =>
        rw [hw] at h
        exact ⟨f, i, o, rfl, rfl, hw, (Except.ok.inj h).symm⟩

/-- C59: the result names the recognised format and holds two images of the decoded image's size, both complete: the source with
exactly the decoded pixels, and the watermarked one with exactly the pixels of the library's result for 11 features, whose alpha
is the source's (255 if the source has none). -/
theorem process_images (W : WebWorld F) (blob : List UInt8) (depth step : F) (p : WatermarkingProcess) (image : DynamicImage)
    (hi : W.decode blob = some image) (h : getWatermarkingProcess W blob depth step = .ok p) :
    W.guess blob = some p.sourceFormat ∧
    p.source.width = image.width ∧ p.source.height = image.height ∧
    p.watermarked.width = image.width ∧ p.watermarked.height = image.height ∧
    p.source.data.length = 4 * (image.width * image.height) ∧ p.watermarked.data.length = 4 * (image.width * image.height) ∧
    (∀ x < image.width, ∀ y < image.height, p.source.PixelAt x y (image.pixel x y)) ∧
    ∃ out, watermark W.deps image depth step 11 = .ok out ∧
      ∀ x < image.width, ∀ y < image.height, p.watermarked.PixelAt x y (out.pixel x y) ∧
        (out.pixel x y).a = if image.color.hasAlpha then (image.pixel x y).a else 255 := by
  obtain ⟨f, i, out, h1, h2, h3, rfl⟩ := process_eq W blob depth step p h
  obtain rfl : i = image := Option.some_inj.1 (h2.symm.trans hi)
  obtain ⟨a1, a2, -, a4, a5⟩ := watermark_keeps_shape_and_alpha W.deps i out depth step 11 h3
  refine ⟨h1, rfl, rfl, a1, a2, rgbaBytes_length i, ?_, fun x hx y hy => imageModel_pixel i x y hx hy, out, h3, ?_⟩
  · rw [← a1, ← a2]; exact rgbaBytes_length out
  · intro x hx y hy
    refine ⟨imageModel_pixel out x y (by omega) (by omega), ?_⟩
    cases ha : i.color.hasAlpha with
    | true => simpa using a4 ha x hx y hy
    | false => simpa using a5 ha x y

/-- C59: both canvases show exactly these bytes, for every image with at least one pixel. -/
theorem canvases_draw (W : WebWorld F) (blob : List UInt8) (depth step : F) (p : WatermarkingProcess) (image : DynamicImage)
    (hi : W.decode blob = some image) (hw : 0 < image.width) (hh : 0 < image.height)
    (h : getWatermarkingProcess W blob depth step = .ok p) :
    (∃ f, drawCanvas p.source = some f ∧ ∀ k < 4 * (image.width * image.height), p.source.data[k]? = some (f k)) ∧
    ∃ f, drawCanvas p.watermarked = some f ∧ ∀ k < 4 * (image.width * image.height), p.watermarked.data[k]? = some (f k) := by
  obtain ⟨-, a1, a2, a3, a4, a5, a6, -⟩ := process_images W blob depth step p image hi h
  have key : ∀ m : ImageModel, m.width = image.width → m.height = image.height →
      m.data.length = 4 * (image.width * image.height) →
      ∃ f, drawCanvas m = some f ∧ ∀ k < 4 * (image.width * image.height), m.data[k]? = some (f k) := by
    intro m e1 e2 e3
    unfold drawCanvas
    rw [if_neg (by omega), if_neg (by rw [e1, e2, e3]; omega)]
    refine ⟨_, rfl, fun k hk => ?_⟩
    have hk' : k < m.data.length := by omega
    simp [List.getElem?_eq_getElem hk']
  exact ⟨key _ a1 a2 a5, key _ a3 a4 a6⟩

/-- C59: the page's settings are depth 500, step 1 and 11 features: it shows something for a data URL exactly if its bytes can be
recovered, recognised and decoded, and the image can be marked with these settings. -/
theorem page_settings (W : WebWorld F) (url : List Char) :
    (∃ p, contentProcess W url = some p) ↔ ∃ blob format image out, base64ToUInt8Array url = some blob ∧
      W.guess blob = some format ∧ W.decode blob = some image ∧
      watermark W.deps image (FloatOps.ofInt 500) (FloatOps.ofInt 1) 11 = .ok out := by
  unfold contentProcess
  cases base64ToUInt8Array url with
  | none => simp
  | some blob =>
    dsimp only
    have h := process_succeeds_iff W blob (FloatOps.ofInt 500) (FloatOps.ofInt 1)
    simp only [Option.some_inj, exists_and_left, exists_eq_left', ← exists_and_right] at h ⊢
    rw [← h]
    cases getWatermarkingProcess W blob (FloatOps.ofInt 500) (FloatOps.ofInt 1) <;> simp [Except.toOption]

/-- C59: for square images, the colours shown on the second canvas differ from those on the first by at most 47 levels. -/
theorem shown_distortion [LawfulFloat F] (W : WebWorld F) (url : List Char) (blob : List UInt8) (p : WatermarkingProcess)
    (image : DynamicImage) (n : Nat) (hn : 0 < n) (hw : image.width = n) (hh : image.height = n)
    (hu : base64ToUInt8Array url = some blob) (hi : W.decode blob = some image) (h : contentProcess W url = some p) :
    ∀ x < n, ∀ y < n, ∃ s m : Rgba, p.source.PixelAt x y s ∧ p.watermarked.PixelAt x y m ∧
      m.r.toNat ≤ s.r.toNat + 47 ∧ s.r.toNat ≤ m.r.toNat + 47 ∧
      (image.color.hasColor = true → m.g.toNat ≤ s.g.toNat + 47 ∧ s.g.toNat ≤ m.g.toNat + 47 ∧
        m.b.toNat ≤ s.b.toNat + 47 ∧ s.b.toNat ≤ m.b.toNat + 47) := by
  have hp : getWatermarkingProcess W blob (FloatOps.ofInt 500) (FloatOps.ofInt 1) = .ok p := by
    unfold contentProcess at h
    rw [hu] at h
    dsimp only at h
    cases hr : getWatermarkingProcess W blob (FloatOps.ofInt 500) (FloatOps.ofInt 1) with
    | error e => rw [hr] at h; simp [Except.toOption] at h
    | ok q => rw [hr] at h; simp only [Except.toOption, Option.some_inj] at h; rw [h]
  obtain ⟨hf, hv⟩ := ofInt_spec (F := F) 500 (by norm_num)
  have hd : GoodDepth (FloatOps.ofInt 500 : F) := by
    constructor <;> first | exact hf | (rw [hv]; norm_num)
  obtain ⟨-, -, -, -, -, -, -, a7, out, ho, a8⟩ := process_images W blob _ _ p image hi hp
  intro x hx y hy
  obtain ⟨b1, b2, -⟩ := watermark_distortion_float W.deps image out n 11 _ _ hn hw hh hd (by rw [hv]; norm_num) ho x hx y hy
  have key : ∀ u v : UInt8, |((u.toNat : ℕ) : ℝ) - (v.toNat : ℝ)| ≤
      (3 / 32 + 1 / 2 ^ 26) * val (FloatOps.ofInt 500 : F) + 1 / 2 → u.toNat ≤ v.toNat + 47 ∧ v.toNat ≤ u.toNat + 47 := by
    intro u v huv
    rw [hv] at huv
    obtain ⟨c1, c2⟩ := abs_le.1 huv
    norm_num at c1 c2
    constructor
    · by_contra hc
      have : (v.toNat : ℝ) + 48 ≤ u.toNat := by exact_mod_cast (by omega : v.toNat + 48 ≤ u.toNat)
      linarith
    · by_contra hc
      have : (u.toNat : ℝ) + 48 ≤ v.toNat := by exact_mod_cast (by omega : u.toNat + 48 ≤ v.toNat)
      linarith
  refine ⟨_, _, a7 x (by omega) y (by omega), (a8 x (by omega) y (by omega)).1, (key _ _ b1).1, (key _ _ b1).2, fun hc => ?_⟩
  exact ⟨(key _ _ (b2 hc).1).1, (key _ _ (b2 hc).1).2, (key _ _ (b2 hc).2).1, (key _ _ (b2 hc).2).2⟩

end
end Sia
