import Verif.Props.SharedOutputsProps

/-! C100: where the bytes of a file come from, and processes with outputs of their own. -/
namespace Sia

section
variable {F : Type} [FloatOps F] (W : World F)

/-- The changes of one round: nothing, or one file is created and gets the contents of the encoder. -/
theorem processInput_shape (fs : Files W.Loc) (suffix : List Char) (folder : Option PathStr) (input : PathStr) :
    (processInput W fs suffix folder input).1 = [] ∨ ∃ loc cs,
      (processInput W fs suffix folder input).1 = (loc, []) :: cs.map (fun c => (loc, c)) ∧
      (cs = [] ∨ ∃ format image, cs = (W.encode format image).1) ∧
      ∃ stem ext, NamedAs input stem ext ∧ loc = W.resolve (OutName stem ext suffix folder) := by
  have hev := processInput_events W fs suffix folder input
  revert hev
  unfold processInput
  cases h1 : fs (W.resolve input) with
  | none => exact fun _ => .inl rfl
  | some content =>
    cases h2 : W.decode input content with
    | none => dsimp only; rw [h2]; exact fun _ => .inl rfl
    | some image =>
      dsimp only
      rw [h2]
      dsimp only
      cases h3 : watermark W.deps image (FloatOps.ofInt 100) (FloatOps.ofInt 1) 11 with
      | error p => exact fun _ => .inl rfl
      | ok marked =>
        cases h4 : (fileName input).bind stemExt with
        | none => exact fun _ => .inl rfl
        | some se =>
          obtain ⟨stem, ext⟩ := se
          dsimp only
          cases h5 : W.creatable (W.resolve (outputPath stem ext suffix folder)) with
          | false => exact fun _ => .inl rfl
          | true =>
            simp only [if_true]
            cases h6 : W.formatOf (outputPath stem ext suffix folder) with
            | none =>
              dsimp only
              intro hev
              exact .inr ⟨_, [], rfl, .inl rfl, hev _ List.mem_cons_self⟩
            | some format =>
              dsimp only
              intro hev
              exact .inr ⟨_, (W.encode format marked).1, rfl, .inr ⟨_, _, rfl⟩, hev _ List.mem_cons_self⟩

omit [FloatOps F] in
theorem callsOf_shape (loc : W.Loc) (cs : List (List UInt8)) :
    callsOf (W := W) ((loc, []) :: cs.map (fun c => (loc, c))) = .create loc :: writeCalls loc [] cs := by
  show FileCall.create _ :: writeCalls _ [] ((cs.map _).map Prod.snd) = _
  rw [List.map_map]
  congr 2
  exact List.map_id _

variable {ι : Type} [DecidableEq ι] (c : ι → Command) (fs : Files W.Loc)

theorem MeansToWrite.mono {past past' : List ι} {l : W.Loc} {k : Nat} {b : UInt8} (hp : past <+: past')
    (h : MeansToWrite W c fs past l k b) : MeansToWrite W c fs past' l k b := by
  obtain ⟨before, h1, h2⟩ := h
  exact ⟨before, h1.trans hp, h2⟩

/-- A file whose bytes all come from a process. -/
def TracedFile (past : List ι) (files : Files W.Loc) (l : W.Loc) : Prop :=
  ∃ content, files l = some content ∧ ∀ (k : Nat) (b : UInt8), content[k]? = some b → b = 0 ∨ MeansToWrite W c fs past l k b

/-- Contents whose bytes all come from a process. -/
def TracedContents (past : List ι) (l : W.Loc) (cs : List (List UInt8)) : Prop :=
  ∀ d ∈ cs, ∀ (k : Nat) (b : UInt8), d[k]? = some b → MeansToWrite W c fs past l k b

/-- What a process is about to do. -/
def TracedCalls (past : List ι) (files : Files W.Loc) (calls : List (FileCall W)) : Prop :=
  calls = [] ∨ ∃ l cs, TracedContents W c fs past l cs ∧
    (calls = .create l :: writeCalls l [] cs ∨ ∃ before, calls = writeCalls l before cs ∧ TracedFile W c fs past files l)

structure Traced (past : List ι) (m : Writers W ι) : Prop where
  here : (startWriters W c fs).exec past = m
  args : ∀ i, (m.run i).suffix = (c i).suffix ∧ (m.run i).folder = (c i).folder ∧ ∀ x ∈ (m.run i).todo, x ∈ (c i).inputs
  file : ∀ l, m.files l = fs l ∨ TracedFile W c fs past m.files l
  calls : ∀ i, TracedCalls W c fs past m.files (m.run i).calls

variable {W c fs}

theorem TracedFile.mono {past past' : List ι} {files files' : Files W.Loc} {l : W.Loc} (hp : past <+: past')
    (h : TracedFile W c fs past files l) (hf : files' l = files l) : TracedFile W c fs past' files' l := by
  obtain ⟨content, h1, h2⟩ := h
  exact ⟨content, hf.trans h1, fun k b hk => (h2 k b hk).imp_right (.mono W c fs hp)⟩

theorem TracedContents.mono {past past' : List ι} {l : W.Loc} {cs : List (List UInt8)} (hp : past <+: past')
    (h : TracedContents W c fs past l cs) : TracedContents W c fs past' l cs := fun d hd k b hk => .mono W c fs hp (h d hd k b hk)

theorem TracedCalls.mono {past past' : List ι} {files files' : Files W.Loc} {calls : List (FileCall W)} (hp : past <+: past')
    (h : TracedCalls W c fs past files calls) (hf : ∀ l, TracedFile W c fs past files l → TracedFile W c fs past' files' l) :
    TracedCalls W c fs past' files' calls := by
  rcases h with h | ⟨l, cs, h1, h2 | ⟨before, h2, h3⟩⟩
  · exact .inl h
  · exact .inr ⟨l, cs, h1.mono hp, .inl h2⟩
  · exact .inr ⟨l, cs, h1.mono hp, .inr ⟨before, h2, hf l h3⟩⟩

theorem traced_step {past : List ι} {m : Writers W ι} (h : Traced W c fs past m) (i : ι) : Traced W c fs (past ++ [i]) (m.step i) := by
  obtain ⟨hhere, hargs, hfile, hcalls⟩ := h
  have hp : past <+: past ++ [i] := List.prefix_append _ _
  have hother : ∀ j, j ≠ i → (m.step i).run j = m.run j := fun j hj => if_neg hj
  have hself : (m.step i).run i = (Writer.step W m.files (m.run i)).2 := if_pos rfl
  have hhere' : (startWriters W c fs).exec (past ++ [i]) = m.step i := by
    rw [← hhere]
    unfold Writers.exec
    rw [List.foldl_append]
    rfl
  -- what is traced stays traced, and the process itself
  have key : (∀ l, TracedFile W c fs past m.files l → TracedFile W c fs (past ++ [i]) (m.step i).files l) ∧
      (∀ l, (m.step i).files l = m.files l ∨ TracedFile W c fs (past ++ [i]) (m.step i).files l) ∧
      ((Writer.step W m.files (m.run i)).2.suffix = (m.run i).suffix ∧ (Writer.step W m.files (m.run i)).2.folder = (m.run i).folder ∧
        ∀ x ∈ (Writer.step W m.files (m.run i)).2.todo, x ∈ (m.run i).todo) ∧
      TracedCalls W c fs (past ++ [i]) (m.step i).files (Writer.step W m.files (m.run i)).2.calls := by
    rcases hcalls i with hc | ⟨l0, cs, hcs, hc | ⟨before, hc, hf⟩⟩
    · -- the next input is read, or nothing happens
      have hfiles : (m.step i).files = m.files := by
        show (Writer.step W m.files (m.run i)).1 = _
        unfold Writer.step
        rw [hc]
        dsimp only
        cases (m.run i).stop with
        | some p => rfl
        | none => cases (m.run i).todo <;> rfl
      rw [hfiles]
      refine ⟨fun l hl => hl.mono hp rfl, fun l => .inl rfl, ?_⟩
      unfold Writer.step
      rw [hc]
      dsimp only
      cases hs : (m.run i).stop with
      | some p => exact ⟨⟨rfl, rfl, fun x hx => hx⟩, .inl hc⟩
      | none =>
        cases ht : (m.run i).todo with
        | nil => exact ⟨⟨rfl, rfl, fun x hx => by rw [← ht]; exact hx⟩, .inl hc⟩
        | cons x rest =>
          refine ⟨⟨rfl, rfl, fun y hy => List.mem_cons_of_mem _ hy⟩, ?_⟩
          dsimp only
          rcases processInput_shape W m.files (m.run i).suffix (m.run i).folder x with he | ⟨loc, cs, he, -, -⟩
          · rw [he]
            exact .inl rfl
          · rw [he, callsOf_shape]
            refine .inr ⟨loc, cs, fun d hd k b hk => ⟨past, hp, i, x, (hargs i).2.2 x (by rw [ht]; exact List.mem_cons_self), (loc, d), ?_, rfl, hk⟩,
              .inl rfl⟩
            rw [hhere, ← (hargs i).1, ← (hargs i).2.1, he]
            exact List.mem_cons_of_mem _ (List.mem_map_of_mem hd)
    · -- a file is created
      have hs := writer_step_call W m.files (m.run i) _ _ hc
      have hfiles : (m.step i).files = W.step m.files (l0, []) := congrArg Prod.fst hs
      have h0 : TracedFile W c fs (past ++ [i]) (m.step i).files l0 := ⟨[], by rw [hfiles, step_at], fun k b hk => by simp at hk⟩
      have hk : ∀ l, l ≠ l0 → (m.step i).files l = m.files l := fun l hl => by rw [hfiles, step_away _ _ _ _ _ hl]
      refine ⟨fun l hl => ?_, fun l => ?_, ?_⟩
      · by_cases hll : l = l0
        · rw [hll]; exact h0
        · exact hl.mono hp (hk l hll)
      · by_cases hll : l = l0
        · exact .inr (by rw [hll]; exact h0)
        · exact .inl (hk l hll)
      · rw [hs]
        exact ⟨⟨rfl, rfl, fun x hx => hx⟩, .inr ⟨l0, cs, hcs.mono hp, .inr ⟨[], rfl, h0⟩⟩⟩
    · cases cs with
      | nil =>
        -- no call, as above
        have hc' : (m.run i).calls = [] := hc
        have hfiles : (m.step i).files = m.files := by
          show (Writer.step W m.files (m.run i)).1 = _
          unfold Writer.step
          rw [hc']
          dsimp only
          cases (m.run i).stop with
          | some p => rfl
          | none => cases (m.run i).todo <;> rfl
        rw [hfiles]
        refine ⟨fun l hl => hl.mono hp rfl, fun l => .inl rfl, ?_⟩
        unfold Writer.step
        rw [hc']
        dsimp only
        cases hs : (m.run i).stop with
        | some p => exact ⟨⟨rfl, rfl, fun x hx => hx⟩, .inl hc'⟩
        | none =>
          cases ht : (m.run i).todo with
          | nil => exact ⟨⟨rfl, rfl, fun x hx => by rw [← ht]; exact hx⟩, .inl hc'⟩
          | cons x rest =>
            refine ⟨⟨rfl, rfl, fun y hy => List.mem_cons_of_mem _ hy⟩, ?_⟩
            dsimp only
            rcases processInput_shape W m.files (m.run i).suffix (m.run i).folder x with he | ⟨loc, cs, he, -, -⟩
            · rw [he]
              exact .inl rfl
            · rw [he, callsOf_shape]
              refine .inr ⟨loc, cs, fun d hd k b hk => ⟨past, hp, i, x, (hargs i).2.2 x (by rw [ht]; exact List.mem_cons_self), (loc, d), ?_,
                rfl, hk⟩, .inl rfl⟩
              rw [hhere, ← (hargs i).1, ← (hargs i).2.1, he]
              exact List.mem_cons_of_mem _ (List.mem_map_of_mem hd)
      | cons d ds =>
        have hs := writer_step_call W m.files (m.run i) _ _ hc
        have hfiles : (m.step i).files = W.step m.files (l0, patch ((m.files l0).getD []) before.length (d.drop before.length)) :=
          congrArg Prod.fst hs
        have h0 : TracedFile W c fs (past ++ [i]) (m.step i).files l0 := by
          obtain ⟨content, h1, h2⟩ := hf
          refine ⟨_, by rw [hfiles, step_at], fun k b hk => ?_⟩
          rw [h1, Option.getD_some] at hk
          by_cases hb : d.drop before.length = []
          · rw [hb, patch_nil] at hk
            exact (h2 k b hk).imp_right (.mono W c fs hp)
          · rw [patch_get _ _ _ _ hb] at hk
            split_ifs at hk with g1 g2 g3
            · exact (h2 k b hk).imp_right (.mono W c fs hp)
            · exact .inl (Option.some.inj hk).symm
            · right
              rw [List.getElem?_drop, Nat.add_sub_cancel' (by omega)] at hk
              exact .mono W c fs hp (hcs d List.mem_cons_self k b hk)
            · exact (h2 k b hk).imp_right (.mono W c fs hp)
        have hk : ∀ l, l ≠ l0 → (m.step i).files l = m.files l := fun l hl => by rw [hfiles, step_away _ _ _ _ _ hl]
        refine ⟨fun l hl => ?_, fun l => ?_, ?_⟩
        · by_cases hll : l = l0
          · rw [hll]; exact h0
          · exact hl.mono hp (hk l hll)
        · by_cases hll : l = l0
          · exact .inr (by rw [hll]; exact h0)
          · exact .inl (hk l hll)
        · rw [hs]
          exact ⟨⟨rfl, rfl, fun x hx => hx⟩, .inr ⟨l0, ds, (fun e he => hcs.mono hp e (List.mem_cons_of_mem _ he)), .inr ⟨d, rfl, h0⟩⟩⟩
  obtain ⟨k1, k2, ⟨k3, k4, k5⟩, k6⟩ := key
  refine ⟨hhere', fun j => ?_, fun l => ?_, fun j => ?_⟩
  · by_cases hj : j = i
    · subst hj
      rw [hself, k3, k4]
      exact ⟨(hargs j).1, (hargs j).2.1, fun x hx => (hargs j).2.2 x (k5 x hx)⟩
    · rw [hother j hj]
      exact hargs j
  · rcases k2 l with h | h
    · rcases hfile l with h' | h'
      · exact .inl (h.trans h')
      · exact .inr (k1 l h')
    · exact .inr h
  · by_cases hj : j = i
    · subst hj
      rw [hself]
      exact k6
    · rw [hother j hj]
      exact (hcalls j).mono hp k1

variable (W c fs)

/-- C100: whatever processes run at the same time, on whatever files, at every moment of every schedule a file is as it was at the start, or
every byte in it is zero or a byte that some process, which had read an input with this output, means to write at this position. -/
theorem shared_bytes (schedule : List ι) (l : W.Loc) :
    ((startWriters W c fs).exec schedule).files l = fs l ∨ ∃ content, ((startWriters W c fs).exec schedule).files l = some content ∧
      ∀ (k : Nat) (b : UInt8), content[k]? = some b → b = 0 ∨ MeansToWrite W c fs schedule l k b := by
  have h : Traced W c fs schedule ((startWriters W c fs).exec schedule) := by
    induction schedule using List.reverseRecOn with
    | nil => exact ⟨rfl, fun i => ⟨rfl, rfl, fun _ h => h⟩, fun l => .inl rfl, fun i => .inl rfl⟩
    | append_singleton schedule i ih =>
      have e : (startWriters W c fs).exec (schedule ++ [i]) = ((startWriters W c fs).exec schedule).step i := by
        unfold Writers.exec
        rw [List.foldl_append]
        rfl
      rw [e]
      exact traced_step ih i
  exact h.file l

end
end Sia
