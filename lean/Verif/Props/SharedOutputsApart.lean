import Verif.Props.SharedOutputsBytes

/-! C100: processes with outputs of their own do, call by call, what `Model/Concurrent.lean` says content by content (C93). -/
namespace Sia

/-- Writing the next bytes of a content that is there so far. -/
theorem patch_grow (before d : List UInt8) (h : before <+: d) : patch before before.length (d.drop before.length) = d := by
  obtain ⟨t, rfl⟩ := h
  rw [List.drop_left]
  unfold patch
  by_cases ht : t = []
  · rw [if_pos ht, ht, List.append_nil]
  · rw [if_neg ht, List.take_length, Nat.sub_self, List.replicate_zero, List.append_nil, List.drop_eq_nil_of_le (by omega), List.append_nil]

section
variable {F : Type} [FloatOps F] (W : World F) {ι : Type} [DecidableEq ι] (c : ι → Command) (fs : Files W.Loc)

/-- The calls a process still has to make are those for the changes it still has to make. -/
def SameWork (i : ι) (files : Files W.Loc) (calls : List (FileCall W)) (pending : List (Event W)) : Prop :=
  (calls = [] ∧ pending = []) ∨ ∃ l ∈ (c i).writes W, ∃ cs,
    (calls = .create l :: writeCalls l [] cs ∧ pending = (l, []) :: cs.map (fun d => (l, d)) ∧ Growing [] cs) ∨
    ∃ before, calls = writeCalls l before cs ∧ pending = cs.map (fun d => (l, d)) ∧ Growing before cs ∧ files l = some before

/-- The two models agree. -/
structure Agree (m : Writers W ι) (n : Machines W ι) : Prop where
  files : m.files = n.files
  args : ∀ i, (m.run i).suffix = (c i).suffix ∧ (m.run i).folder = (c i).folder ∧ ∀ x ∈ (m.run i).todo, x ∈ (c i).inputs
  suffix : ∀ i, (n.run i).suffix = (m.run i).suffix
  folder : ∀ i, (n.run i).folder = (m.run i).folder
  todo : ∀ i, (n.run i).todo = (m.run i).todo
  stop : ∀ i, (n.run i).stop = (m.run i).stop
  work : ∀ i, SameWork W c i m.files (m.run i).calls (n.run i).pending

variable {W c}

theorem SameWork.elim {i : ι} {files : Files W.Loc} {calls : List (FileCall W)} {pending : List (Event W)}
    (h : SameWork W c i files calls pending) :
    (calls = [] ∧ pending = []) ∨ ∃ l ∈ (c i).writes W, ∃ content e es, e ∈ pending.head? ∧ pending = e :: es ∧ e.1 = l ∧
      ∃ call rest, calls = call :: rest ∧ W.call files call = W.step files e ∧ content = e.2 ∧
        ∀ files' : Files W.Loc, files' l = some content → SameWork W c i files' rest es := by
  rcases h with h | ⟨l, hl, cs, ⟨h1, h2, h3⟩ | ⟨before, h1, h2, h3, h4⟩⟩
  · exact .inl h
  · exact .inr ⟨l, hl, [], (l, []), cs.map (fun d => (l, d)), by rw [h2]; rfl, h2, rfl, .create l, writeCalls l [] cs, h1, rfl, rfl,
      fun files' hf => .inr ⟨l, hl, cs, .inr ⟨[], rfl, rfl, h3, hf⟩⟩⟩
  · cases cs with
    | nil => exact .inl ⟨h1, h2⟩
    | cons d ds =>
      refine .inr ⟨l, hl, d, (l, d), ds.map (fun d => (l, d)), by rw [h2]; rfl, h2, rfl, .write l before.length (d.drop before.length),
        writeCalls l d ds, h1, ?_, rfl, fun files' hf => .inr ⟨l, hl, ds, .inr ⟨d, rfl, rfl, h3.2, hf⟩⟩⟩
      show W.step files (l, patch ((files l).getD []) before.length (d.drop before.length)) = _
      rw [h4, Option.getD_some, patch_grow before d h3.1]

/-- What another process does elsewhere does not matter. -/
theorem SameWork.keep {i : ι} {files files' : Files W.Loc} {calls : List (FileCall W)} {pending : List (Event W)}
    (h : SameWork W c i files calls pending) (hf : ∀ l ∈ (c i).writes W, files' l = files l) : SameWork W c i files' calls pending := by
  rcases h with h | ⟨l, hl, cs, h | ⟨before, h1, h2, h3, h4⟩⟩
  · exact .inl h
  · exact .inr ⟨l, hl, cs, .inl h⟩
  · exact .inr ⟨l, hl, cs, .inr ⟨before, h1, h2, h3, (hf l hl).trans h4⟩⟩

theorem agree_step (hA : W.Appends) (hO : OutputsApart W c) {m : Writers W ι} {n : Machines W ι} (h : Agree W c m n) (i : ι) :
    Agree W c (m.step i) (n.step i) := by
  obtain ⟨hfiles, hargs, hsuf, hfol, htodo, hstop, hwork⟩ := h
  -- the step of the process in both models
  have key : (Writer.step W m.files (m.run i)).1 = (Run.step W n.files (n.run i)).1 ∧
      ((Writer.step W m.files (m.run i)).2.suffix = (m.run i).suffix ∧ (Writer.step W m.files (m.run i)).2.folder = (m.run i).folder ∧
        ∀ x ∈ (Writer.step W m.files (m.run i)).2.todo, x ∈ (m.run i).todo) ∧
      (Run.step W n.files (n.run i)).2.suffix = (Writer.step W m.files (m.run i)).2.suffix ∧
      (Run.step W n.files (n.run i)).2.folder = (Writer.step W m.files (m.run i)).2.folder ∧
      (Run.step W n.files (n.run i)).2.todo = (Writer.step W m.files (m.run i)).2.todo ∧
      (Run.step W n.files (n.run i)).2.stop = (Writer.step W m.files (m.run i)).2.stop ∧
      SameWork W c i (Writer.step W m.files (m.run i)).1 (Writer.step W m.files (m.run i)).2.calls
        (Run.step W n.files (n.run i)).2.pending ∧
      ∀ l, l ∉ (c i).writes W → (Writer.step W m.files (m.run i)).1 l = m.files l := by
    rw [← hfiles]
    rcases (hwork i).elim with ⟨h1, h2⟩ | ⟨l, hl, content, e, es, -, h2, h3, call, rest, h1, h4, h5, h6⟩
    · unfold Writer.step Run.step
      rw [h1, h2]
      dsimp only
      rw [hstop i]
      cases hs : (m.run i).stop with
      | some p => exact ⟨rfl, ⟨rfl, rfl, fun x hx => hx⟩, hsuf i, hfol i, htodo i, (hstop i).trans rfl, .inl ⟨h1, h2⟩, fun _ _ => rfl⟩
      | none =>
        dsimp only
        rw [htodo i]
        cases ht : (m.run i).todo with
        | nil =>
          exact ⟨rfl, ⟨rfl, rfl, fun x hx => by rw [← ht]; exact hx⟩, hsuf i, hfol i, htodo i, (hstop i).trans rfl, .inl ⟨h1, h2⟩,
            fun _ _ => rfl⟩
        | cons x rest =>
          dsimp only
          rw [hsuf i, hfol i]
          refine ⟨rfl, ⟨rfl, rfl, fun y hy => List.mem_cons_of_mem _ hy⟩, rfl, rfl, rfl, rfl, ?_, fun _ _ => rfl⟩
          have hx : x ∈ (c i).inputs := (hargs i).2.2 x (by rw [ht]; exact List.mem_cons_self)
          rcases processInput_shape W m.files (m.run i).suffix (m.run i).folder x with he | ⟨loc, cs, he, hcs, stem, ext, q1, q2⟩
          · rw [he]
            exact .inl ⟨rfl, rfl⟩
          · rw [he, callsOf_shape]
            refine .inr ⟨loc, ⟨x, hx, stem, ext, q1, by rw [← (hargs i).1, ← (hargs i).2.1]; exact q2⟩, cs, .inl ⟨rfl, rfl, ?_⟩⟩
            rcases hcs with rfl | ⟨format, image, rfl⟩
            · exact trivial
            · exact hA format image
    · have s1 := writer_step_call W m.files (m.run i) _ _ h1
      have s2 : Run.step W m.files (n.run i) = (W.step m.files e, ⟨(n.run i).suffix, (n.run i).folder, (n.run i).todo, es, (n.run i).stop⟩) := by
        unfold Run.step
        rw [h2]
      rw [s1, s2]
      obtain ⟨el, ec⟩ := e
      dsimp only at h3 h5
      subst h3
      subst h5
      exact ⟨h4, ⟨rfl, rfl, fun x hx => hx⟩, hsuf i, hfol i, htodo i, hstop i, h6 _ (by dsimp only; rw [h4, step_at]),
        fun l hnl => by dsimp only; rw [h4, step_away]; rintro rfl; exact hnl hl⟩
  obtain ⟨k1, ⟨k2, k3, k4⟩, k5, k6, k7, k8, k9, k10⟩ := key
  have mself : (m.step i).run i = (Writer.step W m.files (m.run i)).2 := if_pos rfl
  have nself : (n.step i).run i = (Run.step W n.files (n.run i)).2 := if_pos rfl
  have mother : ∀ j, j ≠ i → (m.step i).run j = m.run j := fun j hj => if_neg hj
  have nother : ∀ j, j ≠ i → (n.step i).run j = n.run j := fun j hj => if_neg hj
  refine ⟨k1, fun j => ?_, fun j => ?_, fun j => ?_, fun j => ?_, fun j => ?_, fun j => ?_⟩ <;> by_cases hj : j = i
  · subst hj
    rw [mself, k2, k3]
    exact ⟨(hargs j).1, (hargs j).2.1, fun x hx => (hargs j).2.2 x (k4 x hx)⟩
  · rw [mother j hj]; exact hargs j
  · subst hj; rw [mself, nself]; exact k5
  · rw [mother j hj, nother j hj]; exact hsuf j
  · subst hj; rw [mself, nself]; exact k6
  · rw [mother j hj, nother j hj]; exact hfol j
  · subst hj; rw [mself, nself]; exact k7
  · rw [mother j hj, nother j hj]; exact htodo j
  · subst hj; rw [mself, nself]; exact k8
  · rw [mother j hj, nother j hj]; exact hstop j
  · subst hj; rw [mself, nself]; exact k9
  · rw [mother j hj, nother j hj]
    exact (hwork j).keep fun l hl => k10 l (hO j i hj l hl)

variable (W c)

/-- C100: if no two processes write the same file, then after every schedule of their system calls the files, the inputs left to each process
and the panics are those of the model in which each write gives the file its whole content at once; so everything proved for that one (C93)
holds of the system calls. -/
theorem shared_refines (hA : W.Appends) (hO : OutputsApart W c) (schedule : List ι) :
    ((startWriters W c fs).exec schedule).files = ((launch W c fs).exec schedule).files ∧
    ∀ i, (((startWriters W c fs).exec schedule).run i).todo = (((launch W c fs).exec schedule).run i).todo ∧
      (((startWriters W c fs).exec schedule).run i).stop = (((launch W c fs).exec schedule).run i).stop ∧
      ((((startWriters W c fs).exec schedule).run i).Ended ↔ (((launch W c fs).exec schedule).run i).Ended) := by
  have h : Agree W c ((startWriters W c fs).exec schedule) ((launch W c fs).exec schedule) := by
    induction schedule using List.reverseRecOn with
    | nil => exact ⟨rfl, fun i => ⟨rfl, rfl, fun _ h => h⟩, fun _ => rfl, fun _ => rfl, fun _ => rfl, fun _ => rfl, fun _ => .inl ⟨rfl, rfl⟩⟩
    | append_singleton schedule i ih =>
      have e : (startWriters W c fs).exec (schedule ++ [i]) = ((startWriters W c fs).exec schedule).step i := by
        unfold Writers.exec
        rw [List.foldl_append]
        rfl
      have e' : (launch W c fs).exec (schedule ++ [i]) = ((launch W c fs).exec schedule).step i := by
        unfold Machines.exec
        rw [List.foldl_append]
        rfl
      rw [e, e']
      exact agree_step hA hO ih i
  refine ⟨h.files, fun i => ⟨(h.todo i).symm, (h.stop i).symm, ?_⟩⟩
  unfold Writer.Ended Run.Ended
  rw [h.todo i, h.stop i]
  have hw : (((startWriters W c fs).exec schedule).run i).calls = [] ↔ (((launch W c fs).exec schedule).run i).pending = [] := by
    rcases (h.work i).elim with ⟨h1, h2⟩ | ⟨_, _, _, e, es, _, h2, _, call, rest, h1, _⟩
    · rw [h1, h2]
      exact ⟨fun _ => rfl, fun _ => rfl⟩
    · rw [h1, h2]
      exact ⟨fun h => (by cases h), fun h => (by cases h)⟩
  rw [hw]

end
end Sia
