import Verif.Spec.WasmSpec
import Verif.Props.WebShown

/-! C76: the objects handed to the page. -/
namespace Sia

theorem js_bind {α β : Type} (x : Js α) (f : α → Js β) (h : JsHeap) :
    (x >>= f) h = match x h with | (some a, h') => f a h' | (none, h') => (none, h') := rfl

theorem js_pure {α : Type} (a : α) (h : JsHeap) : (pure a : Js α) h = (some a, h) := rfl

theorem processNew_run (f : String) (s w : Nat) (h : JsHeap) : Js.processNew f s w h =
    match h.image? s, ({ h with images := h.images.set s none } : JsHeap).image? w with
    | some a, some b => Js.wrapProcess ⟨f, a, b⟩ { h with images := (h.images.set s none).set w none }
    | _, _ => (none, { h with images := (h.images.set s none).set w none }) := by
  simp only [Js.processNew, js_bind, Js.moveImage]
  cases h.image? s <;> cases ({ h with images := h.images.set s none } : JsHeap).image? w <;> rfl

theorem setSource_run (p s : Nat) (h : JsHeap) : Js.setSource p s h =
    match h.image? s with
    | some a => Js.updateProcess p (fun o => { o with source := a }) { h with images := h.images.set s none }
    | none => (none, { h with images := h.images.set s none }) := by
  simp only [Js.setSource, js_bind, Js.moveImage]
  cases h.image? s <;> rfl

theorem setWatermarked_run (p s : Nat) (h : JsHeap) : Js.setWatermarked p s h =
    match h.image? s with
    | some a => Js.updateProcess p (fun o => { o with watermarked := a }) { h with images := h.images.set s none }
    | none => (none, { h with images := h.images.set s none }) := by
  simp only [Js.setWatermarked, js_bind, Js.moveImage]
  cases h.image? s <;> rfl

theorem imageModel_run (m : ImageModel) (h : JsHeap) : Js.imageModel m h =
    (some ⟨m.width, m.height, h.arrays.length⟩, { h with arrays := h.arrays ++ [m.data] }) := rfl

section
variable {F : Type} [FloatOps F] (W : WebWorld F)

theorem watermarkingProcess_run (blob : List UInt8) (d st : F) (h : JsHeap) : Js.watermarkingProcess W blob d st h =
    match getWatermarkingProcess W blob d st with
    | .error _ => (none, h)
    | .ok p => (some h.processes.length, { h with
        arrays := h.arrays ++ [p.source.data] ++ [p.watermarked.data]
        processes := h.processes ++ [some ⟨p.sourceFormat, ⟨p.source.width, p.source.height, h.arrays.length⟩,
          ⟨p.watermarked.width, p.watermarked.height, h.arrays.length + 1⟩⟩] }) := by
  unfold Js.watermarkingProcess
  cases getWatermarkingProcess W blob d st with
  | error e => rfl
  | ok p => simp only [js_bind, imageModel_run, Js.wrapProcess, List.length_append, List.length_singleton]

theorem join_append {α : Type} (l : List (Option α)) (x : Option α) (i : Nat) (hi : i < l.length) :
    ((l ++ [x])[i]?).join = (l[i]?).join := by rw [List.getElem?_append_left hi]

theorem join_set_ne {α : Type} (l : List (Option α)) (x : Option α) (i j : Nat) (h : j ≠ i) :
    ((l.set j x)[i]?).join = (l[i]?).join := by rw [List.getElem?_set_ne h]

theorem join_set_none {α : Type} (l : List (Option α)) (i j : Nat) (h : (l[i]?).join = none) :
    ((l.set j none)[i]?).join = none := by
  by_cases e : j = i
  · subst e
    rw [List.getElem?_set_self']
    cases l[j]? <;> rfl
  · rw [join_set_ne _ _ _ _ e, h]

/-- One call that does not touch an image wrapper. -/
theorem run_image (c : JsCall F) (h : JsHeap) (i : Nat) (hi : i < h.images.length) (hc : ¬ c.TouchesImage i) :
    (c.run W h).image? i = h.image? i ∧ i < (c.run W h).images.length := by
  cases c with
  | newArray _ => exact ⟨rfl, hi⟩
  | store _ _ _ => exact ⟨rfl, hi⟩
  | slice a =>
    simp only [JsCall.run, Js.slice]
    split <;> exact ⟨rfl, hi⟩
  | imageNew w ht d =>
    simp only [JsCall.run, Js.imageNew]
    split
    · simp only [Js.wrap, JsHeap.image?]
      exact ⟨join_append _ _ _ hi, by simp; omega⟩
    · exact ⟨rfl, hi⟩
  | getWidth _ => exact ⟨rfl, hi⟩
  | getHeight _ => exact ⟨rfl, hi⟩
  | getData _ => exact ⟨rfl, hi⟩
  | setWidth j w =>
    simp only [JsCall.TouchesImage] at hc
    simp only [JsCall.run, Js.setWidth, Js.updateImage]
    split
    · exact ⟨rfl, hi⟩
    · simp only [JsHeap.image?]
      exact ⟨join_set_ne _ _ _ _ hc, by simpa using hi⟩
  | setHeight j w =>
    simp only [JsCall.TouchesImage] at hc
    simp only [JsCall.run, Js.setHeight, Js.updateImage]
    split
    · exact ⟨rfl, hi⟩
    · simp only [JsHeap.image?]
      exact ⟨join_set_ne _ _ _ _ hc, by simpa using hi⟩
  | setData j w =>
    simp only [JsCall.TouchesImage] at hc
    simp only [JsCall.run, Js.setData, Js.updateImage]
    split
    · split
      · exact ⟨rfl, hi⟩
      · simp only [JsHeap.image?]
        exact ⟨join_set_ne _ _ _ _ hc, by simpa using hi⟩
    · exact ⟨rfl, hi⟩
  | freeImage j =>
    simp only [JsCall.TouchesImage] at hc
    simp only [JsCall.run, Js.freeImage, JsHeap.image?]
    exact ⟨join_set_ne _ _ _ _ hc, by simpa using hi⟩
  | processNew f s w =>
    simp only [JsCall.TouchesImage, not_or] at hc
    simp only [JsCall.run, processNew_run]
    split <;> simp only [Js.wrapProcess, Js.throw, JsHeap.image?] <;>
      exact ⟨by rw [join_set_ne _ _ _ _ hc.2, join_set_ne _ _ _ _ hc.1], by simpa using hi⟩
  | getFormat _ => exact ⟨rfl, hi⟩
  | getSource p =>
    simp only [JsCall.run, Js.getSource]
    split
    · exact ⟨rfl, hi⟩
    · simp only [Js.wrap, JsHeap.image?]
      exact ⟨join_append _ _ _ hi, by simp; omega⟩
  | getWatermarked p =>
    simp only [JsCall.run, Js.getWatermarked]
    split
    · exact ⟨rfl, hi⟩
    · simp only [Js.wrap, JsHeap.image?]
      exact ⟨join_append _ _ _ hi, by simp; omega⟩
  | setFormat p f =>
    simp only [JsCall.run, Js.setFormat, Js.updateProcess]
    split <;> exact ⟨rfl, hi⟩
  | setSource p s =>
    simp only [JsCall.TouchesImage] at hc
    simp only [JsCall.run, setSource_run]
    split
    · simp only [Js.updateProcess]
      split <;> simp only [JsHeap.image?] <;> exact ⟨join_set_ne _ _ _ _ hc, by simpa using hi⟩
    · simp only [Js.throw, JsHeap.image?]
      exact ⟨join_set_ne _ _ _ _ hc, by simpa using hi⟩
  | setWatermarked p s =>
    simp only [JsCall.TouchesImage] at hc
    simp only [JsCall.run, setWatermarked_run]
    split
    · simp only [Js.updateProcess]
      split <;> simp only [JsHeap.image?] <;> exact ⟨join_set_ne _ _ _ _ hc, by simpa using hi⟩
    · simp only [Js.throw, JsHeap.image?]
      exact ⟨join_set_ne _ _ _ _ hc, by simpa using hi⟩
  | freeProcess p => exact ⟨rfl, hi⟩
  | watermarkingProcess blob d s =>
    simp only [JsCall.run, watermarkingProcess_run]
    split
    · exact ⟨rfl, hi⟩
    · exact ⟨rfl, hi⟩

/-- One call that does not touch a process wrapper. -/
theorem run_process (c : JsCall F) (h : JsHeap) (p : Nat) (hp : p < h.processes.length) (hc : ¬ c.TouchesProcess p) :
    (c.run W h).process? p = h.process? p ∧ p < (c.run W h).processes.length := by
  cases c with
  | newArray _ => exact ⟨rfl, hp⟩
  | store _ _ _ => exact ⟨rfl, hp⟩
  | slice a =>
    simp only [JsCall.run, Js.slice]
    split <;> exact ⟨rfl, hp⟩
  | imageNew w ht d =>
    simp only [JsCall.run, Js.imageNew]
    split <;> exact ⟨rfl, hp⟩
  | getWidth _ => exact ⟨rfl, hp⟩
  | getHeight _ => exact ⟨rfl, hp⟩
  | getData _ => exact ⟨rfl, hp⟩
  | setWidth j w =>
    simp only [JsCall.run, Js.setWidth, Js.updateImage]
    split <;> exact ⟨rfl, hp⟩
  | setHeight j w =>
    simp only [JsCall.run, Js.setHeight, Js.updateImage]
    split <;> exact ⟨rfl, hp⟩
  | setData j w =>
    simp only [JsCall.run, Js.setData, Js.updateImage]
    split
    · split <;> exact ⟨rfl, hp⟩
    · exact ⟨rfl, hp⟩
  | freeImage j => exact ⟨rfl, hp⟩
  | processNew f s w =>
    simp only [JsCall.run, processNew_run]
    split
    · simp only [Js.wrapProcess, JsHeap.process?]
      exact ⟨join_append _ _ _ hp, by simp; omega⟩
    · exact ⟨rfl, hp⟩
  | getFormat _ => exact ⟨rfl, hp⟩
  | getSource p =>
    simp only [JsCall.run, Js.getSource]
    split <;> exact ⟨rfl, hp⟩
  | getWatermarked p =>
    simp only [JsCall.run, Js.getWatermarked]
    split <;> exact ⟨rfl, hp⟩
  | setFormat q f =>
    simp only [JsCall.TouchesProcess] at hc
    simp only [JsCall.run, Js.setFormat, Js.updateProcess]
    split
    · exact ⟨rfl, hp⟩
    · simp only [JsHeap.process?]
      exact ⟨join_set_ne _ _ _ _ hc, by simpa using hp⟩
  | setSource q s =>
    simp only [JsCall.TouchesProcess] at hc
    simp only [JsCall.run, setSource_run]
    split
    · simp only [Js.updateProcess]
      split
      · exact ⟨rfl, hp⟩
      · simp only [JsHeap.process?]
        exact ⟨join_set_ne _ _ _ _ hc, by simpa using hp⟩
    · exact ⟨rfl, hp⟩
  | setWatermarked q s =>
    simp only [JsCall.TouchesProcess] at hc
    simp only [JsCall.run, setWatermarked_run]
    split
    · simp only [Js.updateProcess]
      split
      · exact ⟨rfl, hp⟩
      · simp only [JsHeap.process?]
        exact ⟨join_set_ne _ _ _ _ hc, by simpa using hp⟩
    · exact ⟨rfl, hp⟩
  | freeProcess q =>
    simp only [JsCall.TouchesProcess] at hc
    simp only [JsCall.run, Js.freeProcess, JsHeap.process?]
    exact ⟨join_set_ne _ _ _ _ hc, by simpa using hp⟩
  | watermarkingProcess blob d s =>
    simp only [JsCall.run, watermarkingProcess_run]
    split
    · exact ⟨rfl, hp⟩
    · simp only [JsHeap.process?]
      exact ⟨join_append _ _ _ hp, by simp; omega⟩

/-- One call that does not store into an array. -/
theorem run_array (c : JsCall F) (h : JsHeap) (a : Nat) (ha : a < h.arrays.length) (hc : ¬ c.TouchesArray a) :
    (c.run W h).arrays[a]? = h.arrays[a]? ∧ a < (c.run W h).arrays.length := by
  have app : ∀ x : List UInt8, (h.arrays ++ [x])[a]? = h.arrays[a]? ∧ a < (h.arrays ++ [x]).length :=
    fun x => ⟨List.getElem?_append_left ha, by simp; omega⟩
  cases c with
  | newArray x => exact app x
  | store b k v =>
    simp only [JsCall.TouchesArray] at hc
    simp only [JsCall.run, Js.store]
    exact ⟨by simp [List.getElem?_modify, hc], by simpa using ha⟩
  | slice b =>
    simp only [JsCall.run, Js.slice]
    split
    · exact ⟨rfl, ha⟩
    · exact app _
  | imageNew w ht d =>
    simp only [JsCall.run, Js.imageNew]
    split <;> exact ⟨rfl, ha⟩
  | getWidth _ => exact ⟨rfl, ha⟩
  | getHeight _ => exact ⟨rfl, ha⟩
  | getData _ => exact ⟨rfl, ha⟩
  | setWidth j w =>
    simp only [JsCall.run, Js.setWidth, Js.updateImage]
    split <;> exact ⟨rfl, ha⟩
  | setHeight j w =>
    simp only [JsCall.run, Js.setHeight, Js.updateImage]
    split <;> exact ⟨rfl, ha⟩
  | setData j w =>
    simp only [JsCall.run, Js.setData, Js.updateImage]
    split
    · split <;> exact ⟨rfl, ha⟩
    · exact ⟨rfl, ha⟩
  | freeImage j => exact ⟨rfl, ha⟩
  | processNew f s w =>
    simp only [JsCall.run, processNew_run]
    split <;> exact ⟨rfl, ha⟩
  | getFormat _ => exact ⟨rfl, ha⟩
  | getSource p =>
    simp only [JsCall.run, Js.getSource]
    split <;> exact ⟨rfl, ha⟩
  | getWatermarked p =>
    simp only [JsCall.run, Js.getWatermarked]
    split <;> exact ⟨rfl, ha⟩
  | setFormat q f =>
    simp only [JsCall.run, Js.setFormat, Js.updateProcess]
    split <;> exact ⟨rfl, ha⟩
  | setSource q s =>
    simp only [JsCall.run, setSource_run]
    split
    · simp only [Js.updateProcess]
      split <;> exact ⟨rfl, ha⟩
    · exact ⟨rfl, ha⟩
  | setWatermarked q s =>
    simp only [JsCall.run, setWatermarked_run]
    split
    · simp only [Js.updateProcess]
      split <;> exact ⟨rfl, ha⟩
    · exact ⟨rfl, ha⟩
  | freeProcess q => exact ⟨rfl, ha⟩
  | watermarkingProcess blob d s =>
    simp only [JsCall.run, watermarkingProcess_run]
    split
    · exact ⟨rfl, ha⟩
    · rw [List.append_assoc]
      exact ⟨List.getElem?_append_left ha, by simp; omega⟩

/-- C76: an image wrapper keeps its width, height and array under every sequence of calls that does not set them, free the wrapper or
give it away — whatever happens to other wrappers, including copies of the same image. -/
theorem image_kept (calls : List (JsCall F)) : ∀ (h : JsHeap) (i : Nat), i < h.images.length → (∀ c ∈ calls, ¬ c.TouchesImage i) →
    (h.after W calls).image? i = h.image? i ∧ i < (h.after W calls).images.length := by
  induction calls with
  | nil => intro h i hi _; exact ⟨rfl, hi⟩
  | cons c cs ih =>
    intro h i hi hc
    have h1 := run_image W c h i hi (hc c (by simp))
    have h2 := ih (c.run W h) i h1.2 (fun c' hc' => hc c' (by simp [hc']))
    exact ⟨h2.1.trans h1.1, h2.2⟩

/-- C76: a process wrapper keeps its contents under every sequence of calls that does not set or free it. -/
theorem process_kept (calls : List (JsCall F)) : ∀ (h : JsHeap) (p : Nat), p < h.processes.length →
    (∀ c ∈ calls, ¬ c.TouchesProcess p) →
    (h.after W calls).process? p = h.process? p ∧ p < (h.after W calls).processes.length := by
  induction calls with
  | nil => intro h i hi _; exact ⟨rfl, hi⟩
  | cons c cs ih =>
    intro h i hi hc
    have h1 := run_process W c h i hi (hc c (by simp))
    have h2 := ih (c.run W h) i h1.2 (fun c' hc' => hc c' (by simp [hc']))
    exact ⟨h2.1.trans h1.1, h2.2⟩

/-- C76: an array keeps its bytes under every sequence of calls without a store into it. -/
theorem array_kept (calls : List (JsCall F)) : ∀ (h : JsHeap) (a : Nat), a < h.arrays.length → (∀ c ∈ calls, ¬ c.TouchesArray a) →
    (h.after W calls).arrays[a]? = h.arrays[a]? ∧ a < (h.after W calls).arrays.length := by
  induction calls with
  | nil => intro h i hi _; exact ⟨rfl, hi⟩
  | cons c cs ih =>
    intro h i hi hc
    have h1 := run_array W c h i hi (hc c (by simp))
    have h2 := ih (c.run W h) i h1.2 (fun c' hc' => hc c' (by simp [hc']))
    exact ⟨h2.1.trans h1.1, h2.2⟩


theorem live_lt {h : JsHeap} {i : Nat} {o : ImageObject} (hi : h.image? i = some o) : i < h.images.length := by
  unfold JsHeap.image? at hi
  by_contra hn
  rw [List.getElem?_eq_none (by omega)] at hi
  cases hi

theorem liveProcess_lt {h : JsHeap} {p : Nat} {o : ProcessObject} (hp : h.process? p = some o) : p < h.processes.length := by
  unfold JsHeap.process? at hp
  by_contra hn
  rw [List.getElem?_eq_none (by omega)] at hp
  cases hp

theorem updateImage_live {h : JsHeap} {i : Nat} {o : ImageObject} (hi : h.image? i = some o) (f : ImageObject → ImageObject) :
    (Js.updateImage i f h).1 = some () ∧ (Js.updateImage i f h).2.image? i = some (f o) := by
  have hl := live_lt hi
  unfold Js.updateImage
  rw [hi]
  refine ⟨rfl, ?_⟩
  simp only [JsHeap.image?]
  rw [List.getElem?_set_self hl]
  rfl

/-- C76: what a setter stores is what the getters return, until the next call that touches the wrapper: `set_width`. Numbers are
reduced modulo 2^32; height and array stay. -/
theorem set_width_get (h : JsHeap) (i w : Nat) (o : ImageObject) (hi : h.image? i = some o) (calls : List (JsCall F))
    (hc : ∀ c ∈ calls, ¬ c.TouchesImage i) :
    (Js.setWidth i w h).1 = some () ∧
      (Js.getWidth i ((Js.setWidth i w h).2.after W calls)).1 = some (w % 2 ^ 32) ∧
      (Js.getHeight i ((Js.setWidth i w h).2.after W calls)).1 = some o.height ∧
      (Js.getData i ((Js.setWidth i w h).2.after W calls)).1 = some o.data := by
  have hu := updateImage_live hi fun o => { o with width := w % 2 ^ 32 }
  have hk := image_kept W calls (Js.setWidth i w h).2 i (live_lt hu.2) hc
  have he : ((Js.setWidth i w h).2.after W calls).image? i = some { o with width := w % 2 ^ 32 } := hk.1.trans hu.2
  refine ⟨hu.1, ?_, ?_, ?_⟩ <;> simp [Js.getWidth, Js.getHeight, Js.getData, he]

/-- C76: the same for `set_height`. -/
theorem set_height_get (h : JsHeap) (i w : Nat) (o : ImageObject) (hi : h.image? i = some o) (calls : List (JsCall F))
    (hc : ∀ c ∈ calls, ¬ c.TouchesImage i) :
    (Js.setHeight i w h).1 = some () ∧
      (Js.getHeight i ((Js.setHeight i w h).2.after W calls)).1 = some (w % 2 ^ 32) ∧
      (Js.getWidth i ((Js.setHeight i w h).2.after W calls)).1 = some o.width ∧
      (Js.getData i ((Js.setHeight i w h).2.after W calls)).1 = some o.data := by
  have hu := updateImage_live hi fun o => { o with height := w % 2 ^ 32 }
  have hk := image_kept W calls (Js.setHeight i w h).2 i (live_lt hu.2) hc
  have he : ((Js.setHeight i w h).2.after W calls).image? i = some { o with height := w % 2 ^ 32 } := hk.1.trans hu.2
  refine ⟨hu.1, ?_, ?_, ?_⟩ <;> simp [Js.getWidth, Js.getHeight, Js.getData, he]

/-- C76: the same for `set_data`: the very array that was passed. -/
theorem set_data_get (h : JsHeap) (i a : Nat) (o : ImageObject) (hi : h.image? i = some o) (ha : a < h.arrays.length)
    (calls : List (JsCall F)) (hc : ∀ c ∈ calls, ¬ c.TouchesImage i) :
    (Js.setData i a h).1 = some () ∧
      (Js.getData i ((Js.setData i a h).2.after W calls)).1 = some a ∧
      (Js.getWidth i ((Js.setData i a h).2.after W calls)).1 = some o.width ∧
      (Js.getHeight i ((Js.setData i a h).2.after W calls)).1 = some o.height := by
  have hu := updateImage_live hi fun o => { o with data := a }
  have e : Js.setData i a h = Js.updateImage i (fun o => { o with data := a }) h := by unfold Js.setData; rw [if_pos ha]
  rw [e]
  have hk := image_kept W calls (Js.updateImage i (fun o => { o with data := a }) h).2 i (live_lt hu.2) hc
  have he := hk.1.trans hu.2
  refine ⟨hu.1, ?_, ?_, ?_⟩ <;> simp [Js.getWidth, Js.getHeight, Js.getData, he]

theorem run_dead (c : JsCall F) (h : JsHeap) (i : Nat) (hi : i < h.images.length) (hn : h.image? i = none) :
    (c.run W h).image? i = none ∧ i < (c.run W h).images.length := by
  by_cases ht : c.TouchesImage i
  · have upd : ∀ f, (Js.updateImage i f h).2 = h := by intro f; unfold Js.updateImage; rw [hn]
    have setn : ∀ j, ((h.images.set j none)[i]?).join = none := fun j => join_set_none _ _ _ hn
    cases c with
    | setWidth j w => cases ht; simp only [JsCall.run, Js.setWidth, upd]; exact ⟨hn, hi⟩
    | setHeight j w => cases ht; simp only [JsCall.run, Js.setHeight, upd]; exact ⟨hn, hi⟩
    | setData j a =>
      cases ht
      simp only [JsCall.run, Js.setData]
      split
      · rw [upd]; exact ⟨hn, hi⟩
      · exact ⟨hn, hi⟩
    | freeImage j => simp only [JsCall.run, Js.freeImage, JsHeap.image?]; exact ⟨setn j, by simpa using hi⟩
    | processNew f s w =>
      simp only [JsCall.run, processNew_run]
      split <;> simp only [Js.wrapProcess, JsHeap.image?] <;>
        exact ⟨join_set_none _ _ _ (setn s), by simpa using hi⟩
    | setSource p s =>
      simp only [JsCall.run, setSource_run]
      split
      · simp only [Js.updateProcess]
        split <;> simp only [JsHeap.image?] <;> exact ⟨setn s, by simpa using hi⟩
      · simp only [JsHeap.image?]; exact ⟨setn s, by simpa using hi⟩
    | setWatermarked p s =>
      simp only [JsCall.run, setWatermarked_run]
      split
      · simp only [Js.updateProcess]
        split <;> simp only [JsHeap.image?] <;> exact ⟨setn s, by simpa using hi⟩
      · simp only [JsHeap.image?]; exact ⟨setn s, by simpa using hi⟩
    | _ => exact ht.elim
  · have := run_image W c h i hi ht
    exact ⟨this.1.trans hn, this.2⟩

/-- C76: a wrapper whose image was given away or freed is useless for ever: after any further calls, every getter and setter on it and
every call that is given it throws. -/
theorem moved_forever (calls : List (JsCall F)) : ∀ (h : JsHeap) (i : Nat), i < h.images.length → h.image? i = none →
    (Js.getWidth i (h.after W calls)).1 = none ∧ (Js.getHeight i (h.after W calls)).1 = none ∧
      (Js.getData i (h.after W calls)).1 = none ∧ (∀ w, (Js.setWidth i w (h.after W calls)).1 = none) ∧
      (∀ w, (Js.setHeight i w (h.after W calls)).1 = none) ∧ (∀ a, (Js.setData i a (h.after W calls)).1 = none) ∧
      (∀ f j, (Js.processNew f i j (h.after W calls)).1 = none ∧ (Js.processNew f j i (h.after W calls)).1 = none) ∧
      (∀ p, (Js.setSource p i (h.after W calls)).1 = none ∧ (Js.setWatermarked p i (h.after W calls)).1 = none) := by
  induction calls with
  | nil =>
    intro h i hi hn
    change (Js.getWidth i h).1 = none ∧ (Js.getHeight i h).1 = none ∧ (Js.getData i h).1 = none ∧
      (∀ w, (Js.setWidth i w h).1 = none) ∧ (∀ w, (Js.setHeight i w h).1 = none) ∧ (∀ a, (Js.setData i a h).1 = none) ∧
      (∀ f j, (Js.processNew f i j h).1 = none ∧ (Js.processNew f j i h).1 = none) ∧
      (∀ p, (Js.setSource p i h).1 = none ∧ (Js.setWatermarked p i h).1 = none)
    refine ⟨by simp [Js.getWidth, hn], by simp [Js.getHeight, hn], by simp [Js.getData, hn],
      fun w => by simp [Js.setWidth, Js.updateImage, hn], fun w => by simp [Js.setHeight, Js.updateImage, hn], fun a => ?_,
      fun f j => ⟨?_, ?_⟩, fun p => ⟨?_, ?_⟩⟩
    · unfold Js.setData; split
      · simp [Js.updateImage, hn]
      · rfl
    · rw [processNew_run, hn]
    · have : ({ h with images := h.images.set j none } : JsHeap).image? i = none := join_set_none _ _ _ hn
      rw [processNew_run, this]
      cases h.image? j <;> rfl
    · rw [setSource_run, hn]
    · rw [setWatermarked_run, hn]
  | cons c cs ih =>
    intro h i hi hn
    have := run_dead W c h i hi hn
    exact ih (c.run W h) i this.2 this.1

theorem set_none_join {α : Type} (l : List (Option α)) (i : Nat) : ((l.set i none)[i]?).join = none := by
  rw [List.getElem?_set_self']
  cases l[i]? <;> rfl

/-- C76: a new image shows what its constructor was given (numbers modulo 2^32), in a wrapper different from all that exist; nothing
else changes; without an existing array there is no image. -/
theorem image_new_get (h : JsHeap) (w ht a : Nat) (calls : List (JsCall F)) :
    (h.arrays.length ≤ a → (Js.imageNew w ht a h).1 = none) ∧
    (a < h.arrays.length → (∀ c ∈ calls, ¬ c.TouchesImage h.images.length) → ∃ h1,
      Js.imageNew w ht a h = (some h.images.length, h1) ∧ h1.arrays = h.arrays ∧ h1.processes = h.processes ∧
        (∀ i < h.images.length, h1.image? i = h.image? i) ∧
        (Js.getWidth h.images.length (h1.after W calls)).1 = some (w % 2 ^ 32) ∧
        (Js.getHeight h.images.length (h1.after W calls)).1 = some (ht % 2 ^ 32) ∧
        (Js.getData h.images.length (h1.after W calls)).1 = some a) := by
  constructor
  · intro ha
    unfold Js.imageNew
    rw [if_neg (by omega)]
  · intro ha hc
    have e : Js.imageNew w ht a h = (some h.images.length, { h with images := h.images ++ [some ⟨w % 2 ^ 32, ht % 2 ^ 32, a⟩] }) := by
      unfold Js.imageNew
      rw [if_pos ha]
      rfl
    have hi : ({ h with images := h.images ++ [some ⟨w % 2 ^ 32, ht % 2 ^ 32, a⟩] } : JsHeap).image? h.images.length =
        some ⟨w % 2 ^ 32, ht % 2 ^ 32, a⟩ := by simp [JsHeap.image?]
    have hk := (image_kept W calls _ _ (live_lt hi) hc).1.trans hi
    exact ⟨_, e, rfl, rfl, fun i hi => join_append _ _ _ hi, by simp only [Js.getWidth, hk, Option.map_some],
      by simp only [Js.getHeight, hk, Option.map_some], by simp only [Js.getData, hk, Option.map_some]⟩

/-- C76: the format of a process is what was set last; the images stay. -/
theorem set_format_get (h : JsHeap) (p : Nat) (o : ProcessObject) (f : String) (hp : h.process? p = some o) (calls : List (JsCall F))
    (hc : ∀ c ∈ calls, ¬ c.TouchesProcess p) :
    (Js.setFormat p f h).1 = some () ∧ (Js.getFormat p ((Js.setFormat p f h).2.after W calls)).1 = some f ∧
      ((Js.setFormat p f h).2.after W calls).process? p = some ⟨f, o.source, o.watermarked⟩ := by
  have hl := liveProcess_lt hp
  have e : Js.setFormat p f h = (some (), { h with processes := h.processes.set p (some { o with sourceFormat := f }) }) := by
    unfold Js.setFormat Js.updateProcess
    rw [hp]
  rw [e]
  have h1 : ({ h with processes := h.processes.set p (some { o with sourceFormat := f }) } : JsHeap).process? p =
      some { o with sourceFormat := f } := by
    simp only [JsHeap.process?]
    rw [List.getElem?_set_self hl]
    rfl
  have hk := (process_kept W calls _ p (liveProcess_lt h1) hc).1.trans h1
  exact ⟨rfl, by simp [Js.getFormat, hk], hk⟩

theorem run_dead_process (c : JsCall F) (h : JsHeap) (p : Nat) (hp : p < h.processes.length) (hn : h.process? p = none) :
    (c.run W h).process? p = none ∧ p < (c.run W h).processes.length := by
  by_cases ht : c.TouchesProcess p
  · have upd : ∀ (g : JsHeap) f, g.process? p = none → (Js.updateProcess p f g).2 = g := by
      intro g f hg; unfold Js.updateProcess; rw [hg]
    cases c with
    | setFormat j w => cases ht; simp only [JsCall.run, Js.setFormat, upd h _ hn]; exact ⟨hn, hp⟩
    | setSource j s =>
      cases ht
      simp only [JsCall.run, setSource_run]
      split
      · rw [upd _ _ (by exact hn)]; exact ⟨hn, hp⟩
      · exact ⟨hn, hp⟩
    | setWatermarked j s =>
      cases ht
      simp only [JsCall.run, setWatermarked_run]
      split
      · rw [upd _ _ (by exact hn)]; exact ⟨hn, hp⟩
      · exact ⟨hn, hp⟩
    | freeProcess j =>
      simp only [JsCall.run, Js.freeProcess, JsHeap.process?]
      exact ⟨join_set_none _ _ _ hn, by simpa using hp⟩
    | _ => exact ht.elim
  · have := run_process W c h p hp ht
    exact ⟨this.1.trans hn, this.2⟩

/-- C76: a process that was freed is useless for ever: every getter and setter on it throws. -/
theorem freed_forever (calls : List (JsCall F)) (h : JsHeap) (p : Nat) (hp : p < h.processes.length) :
    ∀ h1, h1 = (Js.freeProcess p h).2.after W calls →
    (Js.getFormat p h1).1 = none ∧ (Js.getSource p h1).1 = none ∧ (Js.getWatermarked p h1).1 = none ∧
      (Js.toWatermarkingProcess p h1).1 = none ∧ (∀ f, (Js.setFormat p f h1).1 = none) ∧
      ∀ i, (Js.setSource p i h1).1 = none ∧ (Js.setWatermarked p i h1).1 = none := by
  intro h1 e
  have key : ∀ (cs : List (JsCall F)) (g : JsHeap), p < g.processes.length → g.process? p = none → (g.after W cs).process? p = none := by
    intro cs
    induction cs with
    | nil => intro g _ hg; exact hg
    | cons c cs ih => intro g hl hg; have := run_dead_process W c g p hl hg; exact ih _ this.2 this.1
  have hd : h1.process? p = none := by
    rw [e]
    exact key calls _ (by simpa [Js.freeProcess] using hp) (set_none_join _ _)
  refine ⟨by simp [Js.getFormat, hd], by simp [Js.getSource, hd], by simp [Js.getWatermarked, hd], ?_,
    fun f => by simp [Js.setFormat, Js.updateProcess, hd], fun i => ⟨?_, ?_⟩⟩
  · unfold Js.toWatermarkingProcess
    rw [js_bind]
    simp [Js.getFormat, hd]
  · rw [setSource_run]
    have hd' : ({ h1 with images := h1.images.set i none } : JsHeap).process? p = none := hd
    cases h1.image? i <;> simp [Js.updateProcess, hd']
  · rw [setWatermarked_run]
    have hd' : ({ h1 with images := h1.images.set i none } : JsHeap).process? p = none := hd
    cases h1.image? i <;> simp [Js.updateProcess, hd']

/-- C76: the calls that give an image away: `new WatermarkingProcess(format, i, j)` succeeds exactly if both wrappers hold an image
and are different; whether it does or not, both wrappers are empty afterwards. -/
theorem process_new (h : JsHeap) (f : String) (i j : Nat) :
    ((Js.processNew f i j h).1.isSome ↔ i ≠ j ∧ (h.image? i).isSome ∧ (h.image? j).isSome) ∧
      (Js.processNew f i j h).2.image? i = none ∧ (Js.processNew f i j h).2.image? j = none ∧
      ∀ a b, h.image? i = some a → h.image? j = some b → i ≠ j →
        (Js.processNew f i j h).1 = some h.processes.length ∧
          (Js.processNew f i j h).2.process? h.processes.length = some ⟨f, a, b⟩ := by
  have hj : i ≠ j → ({ h with images := h.images.set i none } : JsHeap).image? j = h.image? j := fun hne =>
    join_set_ne _ _ _ _ hne
  have hs : ({ h with images := h.images.set i none } : JsHeap).image? i = none := set_none_join _ _
  refine ⟨?_, ?_, ?_, ?_⟩
  · rw [processNew_run]
    by_cases hne : i = j
    · subst hne
      rw [hs]
      cases h.image? i <;> simp
    · rw [hj hne]
      cases h.image? i <;> cases h.image? j <;> simp [Js.wrapProcess, hne]
  · rw [processNew_run]
    split <;> exact join_set_none _ _ _ (set_none_join _ _)
  · rw [processNew_run]
    split <;> exact set_none_join _ _
  · intro a b ha hb hne
    rw [processNew_run, hj hne, ha, hb]
    refine ⟨rfl, ?_⟩
    simp [Js.wrapProcess, JsHeap.process?]

/-- C76: `set_source` and `set_watermarked` empty the wrapper they are given, replace one image of the process and leave the other
image and the format alone. -/
theorem process_set (h : JsHeap) (p i : Nat) (o : ProcessObject) (m : ImageObject) (hp : h.process? p = some o)
    (hi : h.image? i = some m) :
    ((Js.setSource p i h).1 = some () ∧ (Js.setSource p i h).2.image? i = none ∧
      (Js.setSource p i h).2.process? p = some { o with source := m }) ∧
    ((Js.setWatermarked p i h).1 = some () ∧ (Js.setWatermarked p i h).2.image? i = none ∧
      (Js.setWatermarked p i h).2.process? p = some { o with watermarked := m }) := by
  have hl := liveProcess_lt hp
  have key : ∀ f : ProcessObject → ProcessObject,
      (Js.updateProcess p f { h with images := h.images.set i none }).1 = some () ∧
      (Js.updateProcess p f { h with images := h.images.set i none }).2.image? i = none ∧
      (Js.updateProcess p f { h with images := h.images.set i none }).2.process? p = some (f o) := by
    intro f
    have hp' : ({ h with images := h.images.set i none } : JsHeap).process? p = some o := hp
    unfold Js.updateProcess
    rw [hp']
    refine ⟨rfl, set_none_join _ _, ?_⟩
    simp only [JsHeap.process?]
    rw [List.getElem?_set_self hl]
    rfl
  rw [setSource_run, setWatermarked_run, hi]
  exact ⟨key _, key _⟩

theorem run_length (c : JsCall F) (h : JsHeap) : h.images.length ≤ (c.run W h).images.length := by
  cases c <;> simp only [JsCall.run, Js.newArray, Js.store, Js.slice, Js.imageNew, Js.wrap, Js.getWidth, Js.getHeight, Js.getData,
      Js.setWidth, Js.setHeight, Js.setData, Js.updateImage, Js.freeImage, processNew_run, Js.getFormat, Js.getSource,
      Js.getWatermarked, Js.setFormat, setSource_run, setWatermarked_run, Js.freeProcess, watermarkingProcess_run, Js.wrapProcess,
      Js.updateProcess] <;> (repeat' split) <;> simp

/-- C76: `get_source` of a process returns a new wrapper, different from all that exist, around a copy: it shows
the process's image; and whatever is done to this wrapper (or to anything but the process itself), a later `get_source` shows the
same width, height and array again. -/
theorem get_source_fresh (h : JsHeap) (p : Nat) (o : ProcessObject) (hp : h.process? p = some o) (calls : List (JsCall F))
    (hc : ∀ c ∈ calls, ¬ c.TouchesProcess p) :
    ∃ i h1, Js.getSource p h = (some i, h1) ∧ h.images.length = i ∧ h1.image? i = some o.source ∧ h1.arrays = h.arrays ∧
      ∃ j h2, Js.getSource p (h1.after W calls) = (some j, h2) ∧ i < j ∧ h2.image? j = some o.source := by
  have g : ∀ (h : JsHeap), h.process? p = some o → Js.getSource p h =
      (some h.images.length, { h with images := h.images ++ [some o.source] }) := by
    intro h hp; unfold Js.getSource; rw [hp]; rfl
  have hp1 : ({ h with images := h.images ++ [some o.source] } : JsHeap).process? p = some o := hp
  have hk := process_kept W calls _ p (liveProcess_lt hp1) hc
  refine ⟨_, _, g h hp, rfl, by simp [JsHeap.image?], rfl, _, _, g _ (hk.1.trans hp1), ?_, by simp [JsHeap.image?]⟩
  have : ∀ (cs : List (JsCall F)) (h : JsHeap), h.images.length ≤ (h.after W cs).images.length := by
    intro cs
    induction cs with
    | nil => intro h; exact le_rfl
    | cons c cs ih =>
      intro h
      exact le_trans (run_length W c h) (ih (c.run W h))
  have := this calls { h with images := h.images ++ [some o.source] }
  simpa using this

/-- C76: the same for `get_watermarked`. -/
theorem get_watermarked_fresh (h : JsHeap) (p : Nat) (o : ProcessObject) (hp : h.process? p = some o) (calls : List (JsCall F))
    (hc : ∀ c ∈ calls, ¬ c.TouchesProcess p) :
    ∃ i h1, Js.getWatermarked p h = (some i, h1) ∧ h.images.length = i ∧ h1.image? i = some o.watermarked ∧ h1.arrays = h.arrays ∧
      ∃ j h2, Js.getWatermarked p (h1.after W calls) = (some j, h2) ∧ i < j ∧ h2.image? j = some o.watermarked := by
  have g : ∀ (h : JsHeap), h.process? p = some o → Js.getWatermarked p h =
      (some h.images.length, { h with images := h.images ++ [some o.watermarked] }) := by
    intro h hp; unfold Js.getWatermarked; rw [hp]; rfl
  have hp1 : ({ h with images := h.images ++ [some o.watermarked] } : JsHeap).process? p = some o := hp
  have hk := process_kept W calls _ p (liveProcess_lt hp1) hc
  refine ⟨_, _, g h hp, rfl, by simp [JsHeap.image?], rfl, _, _, g _ (hk.1.trans hp1), ?_, by simp [JsHeap.image?]⟩
  have : ∀ (cs : List (JsCall F)) (h : JsHeap), h.images.length ≤ (h.after W cs).images.length := by
    intro cs
    induction cs with
    | nil => intro h; exact le_rfl
    | cons c cs ih =>
      intro h
      exact le_trans (run_length W c h) (ih (c.run W h))
  have := this calls { h with images := h.images ++ [some o.watermarked] }
  simpa using this


/-- C76: the bytes, however, are shared: a store through the array of any copy is seen through the process and through every other
copy of that image. -/
theorem bytes_shared (h : JsHeap) (p : Nat) (o : ProcessObject) (hp : h.process? p = some o) (bytes : List UInt8)
    (hb : h.arrays[o.source.data]? = some bytes) (k : Nat) (v : UInt8) :
    ∃ i h1, Js.getSource p h = (some i, h1) ∧ (Js.getData i h1).1 = some o.source.data ∧
      ∃ j h2, Js.getSource p (Js.store o.source.data k v h1).2 = (some j, h2) ∧ j ≠ i ∧ (Js.getData j h2).1 = some o.source.data ∧
        h2.arrays[o.source.data]? = some (bytes.set k v) := by
  have g : ∀ (h : JsHeap), h.process? p = some o → Js.getSource p h =
      (some h.images.length, { h with images := h.images ++ [some o.source] }) := by
    intro h hp; unfold Js.getSource; rw [hp]; rfl
  refine ⟨_, _, g h hp, by simp [Js.getData, JsHeap.image?], _, _, g _ hp, by simp [Js.store], by simp [Js.getData, JsHeap.image?, Js.store], ?_⟩
  simp [Js.store, List.getElem?_modify, hb]

theorem toImageModel_run (h : JsHeap) (i : Nat) (o : ImageObject) (hi : h.image? i = some o) (bytes : List UInt8)
    (hb : h.arrays[o.data]? = some bytes) :
    Js.toImageModel i h = (some ⟨o.width, o.height, h.arrays.length⟩, { h with arrays := h.arrays ++ [bytes] }) := by
  simp only [Js.toImageModel, js_bind, Js.getWidth, Js.getHeight, Js.getData, hi, Option.map_some, Js.slice, hb, Js.newArray, js_pure]

theorem toWatermarkingProcess_run (h : JsHeap) (p : Nat) (o : ProcessObject) (hp : h.process? p = some o) (sb wb : List UInt8)
    (hs : h.arrays[o.source.data]? = some sb) (hw : h.arrays[o.watermarked.data]? = some wb) :
    Js.toWatermarkingProcess p h =
      (some ⟨o.sourceFormat, ⟨o.source.width, o.source.height, h.arrays.length⟩,
        ⟨o.watermarked.width, o.watermarked.height, h.arrays.length + 1⟩⟩,
        { h with arrays := h.arrays ++ [sb] ++ [wb], images := h.images ++ [some o.source] ++ [some o.watermarked] }) := by
  have g1 : Js.getFormat p h = (some o.sourceFormat, h) := by simp [Js.getFormat, hp]
  have g2 : Js.getSource p h = (some h.images.length, { h with images := h.images ++ [some o.source] }) := by
    unfold Js.getSource; rw [hp]; rfl
  have g3 := toImageModel_run { h with images := h.images ++ [some o.source] } h.images.length o.source (by simp [JsHeap.image?]) sb hs
  have g4 : Js.getWatermarked p { h with images := h.images ++ [some o.source], arrays := h.arrays ++ [sb] } =
      (some (h.images.length + 1), { h with images := h.images ++ [some o.source] ++ [some o.watermarked], arrays := h.arrays ++ [sb] }) := by
    have : ({ h with images := h.images ++ [some o.source], arrays := h.arrays ++ [sb] } : JsHeap).process? p = some o := hp
    unfold Js.getWatermarked; rw [this]; simp [Js.wrap]
  have hlt : o.watermarked.data < h.arrays.length := by
    by_contra hn
    rw [List.getElem?_eq_none (by omega)] at hw
    cases hw
  have g5 := toImageModel_run { h with images := h.images ++ [some o.source] ++ [some o.watermarked], arrays := h.arrays ++ [sb] }
    (h.images.length + 1) o.watermarked (by simp [JsHeap.image?]) wb (by simpa [List.getElem?_append_left hlt] using hw)
  unfold Js.toWatermarkingProcess
  rw [js_bind, g1]
  dsimp only
  rw [js_bind, g2]
  dsimp only
  rw [js_bind, g3]
  dsimp only
  rw [js_bind, g4]
  dsimp only
  rw [js_bind, g5]
  simp [js_pure]

theorem shows_kept (calls : List (JsCall F)) (h : JsHeap) (r : PageProcess) (v : WatermarkingProcess) (hr : r.Shows h v)
    (hc : ∀ c ∈ calls, ¬ c.TouchesArray r.source.data ∧ ¬ c.TouchesArray r.watermarked.data) : r.Shows (h.after W calls) v := by
  obtain ⟨h1, ⟨h2, h3, h4⟩, h5, h6, h7⟩ := hr
  have lt : ∀ (a : Nat) (b : List UInt8), h.arrays[a]? = some b → a < h.arrays.length := by
    intro a b hb
    by_contra hn
    rw [List.getElem?_eq_none (by omega)] at hb
    cases hb
  exact ⟨h1, ⟨h2, h3, (array_kept W calls h _ (lt _ _ h4) fun c hc' => (hc c hc').1).1.trans h4⟩, h5, h6,
    (array_kept W calls h _ (lt _ _ h7) fun c hc' => (hc c hc').2).1.trans h7⟩

/-- C76: the page's own record of a process: format, sizes and bytes are those of the process; the two byte arrays are new copies; all
existing wrappers and arrays are left alone; and no later call changes the record, except a store into one of its two arrays — in
particular no change to the process, its images or their shared bytes does. -/
theorem page_record (h : JsHeap) (p : Nat) (o : ProcessObject) (hp : h.process? p = some o) (sb wb : List UInt8)
    (hs : h.arrays[o.source.data]? = some sb) (hw : h.arrays[o.watermarked.data]? = some wb) :
    ∃ r h', Js.toWatermarkingProcess p h = (some r, h') ∧
      h.arrays.length ≤ r.source.data ∧ h.arrays.length ≤ r.watermarked.data ∧ r.source.data ≠ r.watermarked.data ∧
      (∀ a < h.arrays.length, h'.arrays[a]? = h.arrays[a]?) ∧ (∀ i < h.images.length, h'.image? i = h.image? i) ∧
      h'.processes = h.processes ∧
      ∀ calls : List (JsCall F), (∀ c ∈ calls, ¬ c.TouchesArray r.source.data ∧ ¬ c.TouchesArray r.watermarked.data) →
        r.Shows (h'.after W calls) ⟨o.sourceFormat, ⟨o.source.width, o.source.height, sb⟩,
          ⟨o.watermarked.width, o.watermarked.height, wb⟩⟩ := by
  refine ⟨_, _, toWatermarkingProcess_run h p o hp sb wb hs hw, le_rfl, by simp, by simp, ?_, ?_, rfl, fun calls hc =>
    shows_kept W calls _ _ _ ⟨rfl, ⟨rfl, rfl, by simp⟩, rfl, rfl, by simp⟩ hc⟩
  · intro a ha
    rw [List.append_assoc, List.getElem?_append_left ha]
  · intro i hi
    simp only [JsHeap.image?]
    rw [List.append_assoc, List.getElem?_append_left hi]

/-- C76: the page's function from a data URL to its record, on any heap (that is, after any history): it throws exactly where the
computation of the values (C58, C59) fails, and otherwise its record shows exactly these values, for ever, unless somebody stores into
one of the record's two arrays. -/
theorem page_process (h : JsHeap) (url : List Char) :
    (contentProcess W url = none → (Js.contentProcess W url h).1 = none) ∧
    ∀ v, contentProcess W url = some v → ∃ r h', Js.contentProcess W url h = (some r, h') ∧
      ∀ calls : List (JsCall F), (∀ c ∈ calls, ¬ c.TouchesArray r.source.data ∧ ¬ c.TouchesArray r.watermarked.data) →
        r.Shows (h'.after W calls) v := by
  unfold contentProcess Js.contentProcess
  cases hb : base64ToUInt8Array url with
  | none => exact ⟨fun _ => rfl, fun v hv => (by cases hv)⟩
  | some blob =>
    dsimp only
    have hr := watermarkingProcess_run W blob (FloatOps.ofInt 500) (FloatOps.ofInt 1) h
    cases hg : getWatermarkingProcess W blob (FloatOps.ofInt 500) (FloatOps.ofInt 1) with
    | error e =>
      rw [hg] at hr
      refine ⟨fun _ => ?_, fun v hv => (by cases hv)⟩
      rw [js_bind, hr]
    | ok p =>
      rw [hg] at hr
      refine ⟨fun hn => (by cases hn), fun v hv => ?_⟩
      obtain rfl : p = v := Option.some.inj hv
      rw [js_bind, hr]
      dsimp only
      obtain ⟨r, h', h1, _, _, _, _, _, _, h2⟩ := page_record W { h with
        arrays := h.arrays ++ [p.source.data] ++ [p.watermarked.data]
        processes := h.processes ++ [some ⟨p.sourceFormat, ⟨p.source.width, p.source.height, h.arrays.length⟩,
          ⟨p.watermarked.width, p.watermarked.height, h.arrays.length + 1⟩⟩] } h.processes.length
        ⟨p.sourceFormat, ⟨p.source.width, p.source.height, h.arrays.length⟩,
          ⟨p.watermarked.width, p.watermarked.height, h.arrays.length + 1⟩⟩ (by simp [JsHeap.process?]) p.source.data
        p.watermarked.data (by simp) (by simp)
      exact ⟨r, h', h1, h2⟩

/-- Every array that a wrapper refers to exists, on every heap that calls can produce; so the hypotheses of `page_record` and
`bytes_shared` hold for every process that exists. -/
theorem closed_run (c : JsCall F) (h : JsHeap) (hh : h.Closed) : (c.run W h).Closed := by
  have addArrays : ∀ l, ({ h with arrays := h.arrays ++ l } : JsHeap).Closed := fun l =>
    ⟨fun i o ho => by have := hh.1 i o ho; simp; omega, fun p o ho => by have := hh.2 p o ho; simp; omega⟩
  have dropImage : ∀ (g : JsHeap) (i : Nat), g.Closed → ({ g with images := g.images.set i none } : JsHeap).Closed := by
    intro g i hg
    refine ⟨fun j o ho => ?_, hg.2⟩
    simp only [JsHeap.image?] at ho
    by_cases e : i = j
    · subst e; rw [set_none_join] at ho; cases ho
    · rw [join_set_ne _ _ _ _ e] at ho; exact hg.1 j o ho
  have setImage : ∀ (g : JsHeap) (i : Nat) (o : ImageObject), g.Closed → o.data < g.arrays.length →
      ({ g with images := g.images.set i (some o) } : JsHeap).Closed := by
    intro g i o hg hd
    refine ⟨fun j o' ho => ?_, hg.2⟩
    simp only [JsHeap.image?] at ho
    by_cases e : i = j
    · subst e
      rw [List.getElem?_set_self'] at ho
      cases hl : g.images[i]? with
      | none => rw [hl] at ho; cases ho
      | some x => rw [hl] at ho; cases ho; exact hd
    · rw [join_set_ne _ _ _ _ e] at ho; exact hg.1 j o' ho
  have addImage : ∀ (g : JsHeap) (o : ImageObject), g.Closed → o.data < g.arrays.length →
      ({ g with images := g.images ++ [some o] } : JsHeap).Closed := by
    intro g o hg hd
    refine ⟨fun j o' ho => ?_, hg.2⟩
    simp only [JsHeap.image?] at ho
    rcases lt_trichotomy j g.images.length with hj | hj | hj
    · rw [List.getElem?_append_left hj] at ho; exact hg.1 j o' ho
    · subst hj; simp at ho; subst ho; exact hd
    · rw [List.getElem?_eq_none (by simp; omega)] at ho; cases ho
  have addProcess : ∀ (g : JsHeap) (o : ProcessObject), g.Closed → o.source.data < g.arrays.length →
      o.watermarked.data < g.arrays.length → ({ g with processes := g.processes ++ [some o] } : JsHeap).Closed := by
    intro g o hg hd hd'
    refine ⟨hg.1, fun j o' ho => ?_⟩
    simp only [JsHeap.process?] at ho
    rcases lt_trichotomy j g.processes.length with hj | hj | hj
    · rw [List.getElem?_append_left hj] at ho; exact hg.2 j o' ho
    · subst hj; simp at ho; subst ho; exact ⟨hd, hd'⟩
    · rw [List.getElem?_eq_none (by simp; omega)] at ho; cases ho
  have setProcess : ∀ (g : JsHeap) (i : Nat) (o : ProcessObject), g.Closed → o.source.data < g.arrays.length →
      o.watermarked.data < g.arrays.length → ({ g with processes := g.processes.set i (some o) } : JsHeap).Closed := by
    intro g i o hg hd hd'
    refine ⟨hg.1, fun j o' ho => ?_⟩
    simp only [JsHeap.process?] at ho
    by_cases e : i = j
    · subst e
      rw [List.getElem?_set_self'] at ho
      cases hl : g.processes[i]? with
      | none => rw [hl] at ho; cases ho
      | some x => rw [hl] at ho; cases ho; exact ⟨hd, hd'⟩
    · rw [join_set_ne _ _ _ _ e] at ho; exact hg.2 j o' ho
  have upd : ∀ (i : Nat) (f : ImageObject → ImageObject), (∀ o, h.image? i = some o → (f o).data < h.arrays.length) →
      (Js.updateImage i f h).2.Closed := by
    intro i f hf
    unfold Js.updateImage
    split
    · exact hh
    · rename_i o ho
      exact setImage h i _ hh (hf o ho)
  have updP : ∀ (g : JsHeap) (p : Nat) (f : ProcessObject → ProcessObject), g.Closed → (∀ o, g.process? p = some o →
      (f o).source.data < g.arrays.length ∧ (f o).watermarked.data < g.arrays.length) → (Js.updateProcess p f g).2.Closed := by
    intro g p f hg hf
    unfold Js.updateProcess
    split
    · exact hg
    · rename_i o ho
      exact setProcess g p _ hg (hf o ho).1 (hf o ho).2
  cases c with
  | newArray x => exact addArrays [x]
  | store a k v =>
    exact ⟨fun i o ho => by have := hh.1 i o ho; simpa [JsCall.run, Js.store] using this,
      fun p o ho => by have := hh.2 p o ho; simpa [JsCall.run, Js.store] using this⟩
  | slice a =>
    simp only [JsCall.run, Js.slice]
    split
    · exact hh
    · exact addArrays _
  | imageNew w ht d =>
    simp only [JsCall.run, Js.imageNew]
    split
    · rename_i hd; exact addImage h _ hh hd
    · exact hh
  | getWidth _ => exact hh
  | getHeight _ => exact hh
  | getData _ => exact hh
  | setWidth i w => exact upd i _ fun o ho => hh.1 i o ho
  | setHeight i w => exact upd i _ fun o ho => hh.1 i o ho
  | setData i d =>
    simp only [JsCall.run, Js.setData]
    split
    · rename_i hd; exact upd i _ fun o ho => hd
    · exact hh
  | freeImage i => exact dropImage h i hh
  | processNew f s w =>
    have h1 := dropImage h s hh
    have h2 := dropImage _ w h1
    simp only [JsCall.run, processNew_run]
    split
    · rename_i a b ha hb
      exact addProcess _ _ h2 (hh.1 _ _ ha) (h1.1 _ _ hb)
    · exact h2
  | getFormat _ => exact hh
  | getSource p =>
    simp only [JsCall.run, Js.getSource]
    split
    · exact hh
    · rename_i o ho; exact addImage h _ hh (hh.2 p o ho).1
  | getWatermarked p =>
    simp only [JsCall.run, Js.getWatermarked]
    split
    · exact hh
    · rename_i o ho; exact addImage h _ hh (hh.2 p o ho).2
  | setFormat p f => exact updP h p _ hh fun o ho => hh.2 p o ho
  | setSource p s =>
    have h1 := dropImage h s hh
    simp only [JsCall.run, setSource_run]
    split
    · rename_i a ha
      exact updP _ p _ h1 fun o ho => ⟨hh.1 _ _ ha, (h1.2 p o ho).2⟩
    · exact h1
  | setWatermarked p s =>
    have h1 := dropImage h s hh
    simp only [JsCall.run, setWatermarked_run]
    split
    · rename_i a ha
      exact updP _ p _ h1 fun o ho => ⟨(h1.2 p o ho).1, hh.1 _ _ ha⟩
    · exact h1
  | freeProcess p =>
    refine ⟨hh.1, fun j o ho => ?_⟩
    simp only [JsCall.run, Js.freeProcess, JsHeap.process?] at ho
    by_cases e : p = j
    · subst e; rw [set_none_join] at ho; cases ho
    · rw [join_set_ne _ _ _ _ e] at ho; exact hh.2 j o ho
  | watermarkingProcess blob d s =>
    simp only [JsCall.run, watermarkingProcess_run]
    split
    · exact hh
    · skip
      rename_i p _
      have h1 := addArrays ([p.source.data] ++ [p.watermarked.data])
      rw [← List.append_assoc] at h1
      exact addProcess _ _ h1 (by simp) (by simp)

theorem closed_after (calls : List (JsCall F)) : ∀ h : JsHeap, h.Closed → (h.after W calls).Closed := by
  induction calls with
  | nil => intro h hh; exact hh
  | cons c cs ih => intro h hh; exact ih _ (closed_run W c h hh)

/-- C76: on every heap that calls can produce from the empty one, every process that exists can be turned into a page record, which
shows its format, its sizes and the bytes its two arrays hold at that moment, and keeps showing them as in `page_record`. -/
theorem page_record_always (before : List (JsCall F)) (p : Nat) (o : ProcessObject)
    (hp : ((⟨[], [], []⟩ : JsHeap).after W before).process? p = some o) :
    ∃ sb wb, ((⟨[], [], []⟩ : JsHeap).after W before).arrays[o.source.data]? = some sb ∧
      ((⟨[], [], []⟩ : JsHeap).after W before).arrays[o.watermarked.data]? = some wb ∧
      ∃ r h', Js.toWatermarkingProcess p ((⟨[], [], []⟩ : JsHeap).after W before) = (some r, h') ∧
        ∀ later : List (JsCall F), (∀ c ∈ later, ¬ c.TouchesArray r.source.data ∧ ¬ c.TouchesArray r.watermarked.data) →
          r.Shows (h'.after W later) ⟨o.sourceFormat, ⟨o.source.width, o.source.height, sb⟩,
            ⟨o.watermarked.width, o.watermarked.height, wb⟩⟩ := by
  have hcl : ((⟨[], [], []⟩ : JsHeap).after W before).Closed := closed_after W before _
    ⟨fun i o ho => by simp [JsHeap.image?] at ho, fun p o ho => by simp [JsHeap.process?] at ho⟩
  have h2 := hcl.2 p o hp
  obtain ⟨r, h', h3, _, _, _, _, _, _, h4⟩ := page_record W _ p o hp _ _ (List.getElem?_eq_getElem h2.1) (List.getElem?_eq_getElem h2.2)
  exact ⟨_, _, List.getElem?_eq_getElem h2.1, List.getElem?_eq_getElem h2.2, r, h', h3, h4⟩

/-- C76: the text on the page: "Loading..." where nothing could be computed, otherwise the format's name in capital letters, the
decoded picture's width and height, and the two pictures of that size. -/
theorem page_text (url : List Char) :
    (contentProcess W url = none ∧ renderPage (contentProcess W url) = .loading) ∨
    ∃ blob format image out first second, base64ToUInt8Array url = some blob ∧ W.guess blob = some format ∧
      W.decode blob = some image ∧ watermark W.deps image (FloatOps.ofInt 500) (FloatOps.ofInt 1) 11 = .ok out ∧
      renderPage (contentProcess W url) = .result ("Format: " ++ format.toUpper)
        ("Size: " ++ toString image.width ++ "x" ++ toString image.height) first second ∧
      (∀ x < image.width, ∀ y < image.height, first.PixelAt x y (image.pixel x y) ∧ second.PixelAt x y (out.pixel x y)) := by
  cases hc : contentProcess W url with
  | none => exact Or.inl ⟨rfl, rfl⟩
  | some p =>
    right
    obtain ⟨blob, format, image, out, h1, h2, h3, h4⟩ := (page_settings W url).1 ⟨p, hc⟩
    have hp : getWatermarkingProcess W blob (FloatOps.ofInt 500) (FloatOps.ofInt 1) = .ok p := by
      unfold contentProcess at hc
      rw [h1] at hc
      dsimp only at hc
      cases hg : getWatermarkingProcess W blob (FloatOps.ofInt 500) (FloatOps.ofInt 1) with
      | error e => rw [hg] at hc; cases hc
      | ok q => rw [hg] at hc; cases hc; rfl
    obtain ⟨i1, i2, i3, _, _, _, _, i8, out', i9, i10⟩ := process_images W blob _ _ p image h3 hp
    rw [h2] at i1
    cases i1
    rw [h4] at i9
    cases i9
    refine ⟨blob, _, image, out, p.source, p.watermarked, h1, h2, h3, h4, ?_, fun x hx y hy => ⟨i8 x hx y hy, (i10 x hx y hy).1⟩⟩
    unfold renderPage
    dsimp only
    rw [i2, i3]

end
end Sia
