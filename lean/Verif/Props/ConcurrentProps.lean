import Verif.Props.CliProps
import Verif.Spec.ConcurrentSpec

/-! C93: several processes of the tool at the same time. -/
namespace Sia

section
variable {F : Type} [FloatOps F] (W : World F)

/-- What a process still does, if it is left alone. -/
def Run.rest (fs : Files W.Loc) (r : Run W) : List (Event W) × Option Panic :=
  match r.stop with
  | some p => (r.pending, some p)
  | none =>
    let q := processInputs W r.suffix r.folder (W.after fs r.pending) r.todo
    (r.pending ++ q.1, q.2)

theorem after_cons (fs : Files W.Loc) (e : Event W) (es : List (Event W)) : W.after fs (e :: es) = W.after (W.step fs e) es := rfl

/-- A step is the first of what is left to do. -/
theorem Run.rest_step (fs : Files W.Loc) (r : Run W) :
    ∃ es, es.length ≤ 1 ∧ (Run.step W fs r).1 = W.after fs es ∧ Run.rest W fs r =
      (es ++ (Run.rest W (Run.step W fs r).1 (Run.step W fs r).2).1, (Run.rest W (Run.step W fs r).1 (Run.step W fs r).2).2) ∧
      (∀ e ∈ es, e ∈ r.pending) := by
  obtain ⟨suffix, folder, todo, pending, stop⟩ := r
  cases pending with
  | cons e es =>
    refine ⟨[e], le_rfl, rfl, ?_, by simp⟩
    cases stop <;> rfl
  | nil =>
    refine ⟨[], Nat.zero_le _, ?_, ?_, by simp⟩
    · cases stop with
      | some p => rfl
      | none => cases todo <;> rfl
    · cases stop with
      | some p => rfl
      | none =>
        cases todo with
        | nil => rfl
        | cons i rest =>
          show ([] ++ (processInputs W suffix folder fs (i :: rest)).1, (processInputs W suffix folder fs (i :: rest)).2) = _
          unfold processInputs
          dsimp only [Run.step, Run.rest]
          rcases processInput W fs suffix folder i with ⟨es, p⟩
          cases p <;> rfl

/-- A step depends only on the files that are still to be read. -/
theorem Run.step_congr (fs fs' : Files W.Loc) (r : Run W) (h : ∀ i ∈ r.todo, fs (W.resolve i) = fs' (W.resolve i)) :
    (Run.step W fs r).2 = (Run.step W fs' r).2 := by
  obtain ⟨suffix, folder, todo, pending, stop⟩ := r
  cases pending with
  | cons e es => rfl
  | nil =>
    cases stop with
    | some p => rfl
    | none =>
      cases todo with
      | nil => rfl
      | cons i rest =>
        have e : processInput W fs suffix folder i = processInput W fs' suffix folder i := by
          unfold processInput
          rw [h i List.mem_cons_self]
        dsimp only [Run.step]
        rw [e]

/-- How many steps a process still needs at most. -/
def Run.steps (fs : Files W.Loc) (r : Run W) : Nat := (Run.rest W fs r).1.length + if r.stop = none then r.todo.length else 0

theorem Run.steps_step (fs : Files W.Loc) (r : Run W) :
    Run.steps W (Run.step W fs r).1 (Run.step W fs r).2 ≤ Run.steps W fs r - 1 := by
  obtain ⟨es, _, _, e2, _⟩ := Run.rest_step W fs r
  obtain ⟨suffix, folder, todo, pending, stop⟩ := r
  cases pending with
  | cons e pending =>
    have e3 : (Run.rest W fs ⟨suffix, folder, todo, e :: pending, stop⟩).1.length =
        (Run.rest W (W.step fs e) ⟨suffix, folder, todo, pending, stop⟩).1.length + 1 := by
      cases stop <;> rfl
    show (Run.rest W (W.step fs e) ⟨suffix, folder, todo, pending, stop⟩).1.length + (if stop = none then todo.length else 0) ≤
      (Run.rest W fs ⟨suffix, folder, todo, e :: pending, stop⟩).1.length + (if stop = none then todo.length else 0) - 1
    omega
  | nil =>
    cases stop with
    | some p => exact Nat.zero_le _
    | none =>
      cases todo with
      | nil => exact Nat.zero_le _
      | cons i rest =>
        have e3 := congrArg (fun p => p.1.length) e2
        dsimp only at e3
        rw [List.length_append] at e3
        have e4 : (if (Run.step W fs ⟨suffix, folder, i :: rest, [], none⟩).2.stop = none then
            (Run.step W fs ⟨suffix, folder, i :: rest, [], none⟩).2.todo.length else 0) ≤ rest.length := by
          split_ifs
          · exact le_rfl
          · exact Nat.zero_le _
        have e5 : Run.steps W fs ⟨suffix, folder, i :: rest, [], none⟩ =
            (Run.rest W fs ⟨suffix, folder, i :: rest, [], none⟩).1.length + (rest.length + 1) := rfl
        rw [e5]
        unfold Run.steps
        omega

/-- A process that needs no more steps has ended. -/
theorem Run.ended_of_steps (fs : Files W.Loc) (r : Run W) (h : Run.steps W fs r = 0) : r.Ended := by
  obtain ⟨suffix, folder, todo, pending, stop⟩ := r
  unfold Run.steps Run.rest at h
  cases stop with
  | some p =>
    have : pending.length = 0 := (Nat.add_eq_zero_iff.mp h).1
    exact ⟨List.length_eq_zero_iff.mp this, Or.inl (by simp)⟩
  | none =>
    obtain ⟨h1, h2⟩ := Nat.add_eq_zero_iff.mp h
    have h1' : (pending ++ (processInputs W suffix folder (W.after fs pending) todo).1).length = 0 := h1
    have h2' : todo.length = 0 := h2
    rw [List.length_append] at h1'
    have h3 : pending.length = 0 := by omega
    exact ⟨List.length_eq_zero_iff.mp h3, Or.inr (List.length_eq_zero_iff.mp h2')⟩

/-- The process belongs to the command: it reads only its inputs and writes only their outputs. -/
structure Run.Of (c : Command) (r : Run W) : Prop where
  suffix : r.suffix = c.suffix
  folder : r.folder = c.folder
  todo : ∀ i ∈ r.todo, i ∈ c.inputs
  pending : ∀ e ∈ r.pending, e.1 ∈ c.writes W

theorem Run.Of.step {c : Command} {r : Run W} (h : r.Of W c) (fs : Files W.Loc) : (Run.step W fs r).2.Of W c := by
  obtain ⟨suffix, folder, todo, pending, stop⟩ := r
  obtain ⟨h1, h2, h3, h4⟩ := h
  cases pending with
  | cons e es => exact ⟨h1, h2, h3, fun e' he' => h4 e' (List.mem_cons_of_mem _ he')⟩
  | nil =>
    cases stop with
    | some p => exact ⟨h1, h2, h3, h4⟩
    | none =>
      cases todo with
      | nil => exact ⟨h1, h2, h3, h4⟩
      | cons i rest =>
        refine ⟨h1, h2, fun j hj => h3 j (List.mem_cons_of_mem _ hj), fun e he => ?_⟩
        obtain ⟨stem, ext, hn, hl⟩ := processInput_events W fs suffix folder i e he
        have h1' : suffix = c.suffix := h1
        have h2' : folder = c.folder := h2
        rw [h1', h2'] at hl
        exact ⟨i, h3 i List.mem_cons_self, stem, ext, hn, hl⟩

omit [FloatOps F] in
theorem after_agree (fs fs' : Files W.Loc) (es : List (Event W)) (l : W.Loc) (h : fs l = fs' l) : W.after fs es l = W.after fs' es l := by
  induction es generalizing fs fs' with
  | nil => exact h
  | cons e es ih =>
    refine ih _ _ ?_
    unfold World.step
    split_ifs
    · rfl
    · exact h

/-- What holds at any time, for one process: it has made the first of the changes it makes alone, and in the files it reads and writes
nothing else has happened; after `k` steps it needs that many fewer. -/
structure InStep (c : Command) (fs0 fs : Files W.Loc) (r : Run W) (k : Nat) : Prop where
  of : r.Of W c
  done : ∃ es, c.alone W fs0 = (es ++ (Run.rest W (W.after fs0 es) r).1, (Run.rest W (W.after fs0 es) r).2) ∧
    (∀ l, l ∈ c.writes W ∨ l ∈ c.reads W → fs l = W.after fs0 es l) ∧
    Run.steps W (W.after fs0 es) r ≤ (c.alone W fs0).1.length + c.inputs.length - k

theorem InStep.own {c : Command} {fs0 fs : Files W.Loc} {r : Run W} {k : Nat} (h : InStep W c fs0 fs r k) :
    InStep W c fs0 (Run.step W fs r).1 (Run.step W fs r).2 (k + 1) := by
  obtain ⟨hof, es, h1, h2, h3⟩ := h
  refine ⟨hof.step W fs, ?_⟩
  obtain ⟨new, _, n1, n2, n3⟩ := Run.rest_step W (W.after fs0 es) r
  have hcong : (Run.step W fs r).2 = (Run.step W (W.after fs0 es) r).2 :=
    Run.step_congr W _ _ r fun i hi => h2 _ (Or.inr ⟨i, hof.todo i hi, rfl⟩)
  refine ⟨es ++ new, ?_, fun l hl => ?_, ?_⟩
  · rw [after_append, ← n1, hcong, h1, n2, List.append_assoc]
  · rw [after_append]
    obtain ⟨suffix, folder, todo, pending, stop⟩ := r
    cases pending with
    | cons e pending =>
      have e1 : W.step (W.after fs0 es) e = W.after (W.after fs0 es) new := n1
      rw [← e1]
      exact after_agree W fs _ [e] l (h2 l hl)
    | nil =>
      have hnew : new = [] := List.eq_nil_iff_forall_not_mem.mpr fun e he => by simpa using n3 e he
      have hfs : ∀ fs : Files W.Loc, (Run.step W fs ⟨suffix, folder, todo, [], stop⟩).1 = fs := by
        intro fs
        cases stop with
        | some p => rfl
        | none => cases todo <;> rfl
      rw [hfs, hnew]
      exact h2 l hl
  · rw [after_append, ← n1, hcong]
    have := Run.steps_step W (W.after fs0 es) r
    omega

/-- The changes of another process do not matter if they are elsewhere. -/
theorem InStep.other {c : Command} {fs0 fs fs' : Files W.Loc} {r : Run W} {k : Nat} (h : InStep W c fs0 fs r k)
    (hfs : ∀ l, l ∈ c.writes W ∨ l ∈ c.reads W → fs' l = fs l) : InStep W c fs0 fs' r k := by
  obtain ⟨hof, es, h1, h2, h3⟩ := h
  exact ⟨hof, es, h1, fun l hl => (hfs l hl).trans (h2 l hl), h3⟩

/-- A step changes only outputs of the command. -/
theorem Run.step_frame {c : Command} {r : Run W} (h : r.Of W c) (fs : Files W.Loc) (l : W.Loc) (hl : l ∉ c.writes W) :
    (Run.step W fs r).1 l = fs l := by
  obtain ⟨es, _, e1, _, e3⟩ := Run.rest_step W fs r
  rw [e1]
  exact after_untouched W fs es l fun e he heq => hl (heq ▸ h.pending e (e3 e he))

variable {ι : Type} [DecidableEq ι]

theorem machines_inStep (c : ι → Command) (hc : Independent W c) (fs0 : Files W.Loc) (schedule : List ι) :
    (∀ i, InStep W (c i) fs0 ((launch W c fs0).exec schedule).files (((launch W c fs0).exec schedule).run i) (schedule.count i)) ∧
    ∀ l, (∀ i, l ∉ (c i).writes W) → ((launch W c fs0).exec schedule).files l = fs0 l := by
  induction schedule using List.reverseRecOn with
  | nil =>
    refine ⟨fun i => ⟨⟨rfl, rfl, fun _ h => h, fun e he => by cases he⟩, [], rfl, fun l _ => rfl, le_rfl⟩, fun l _ => rfl⟩
  | append_singleton schedule i ih =>
    have e : (launch W c fs0).exec (schedule ++ [i]) = ((launch W c fs0).exec schedule).step i := by
      unfold Machines.exec
      rw [List.foldl_append]
      rfl
    rw [e]
    obtain ⟨ih1, ih2⟩ := ih
    set m := (launch W c fs0).exec schedule with hm
    constructor
    · intro j
      by_cases hji : j = i
      · subst hji
        have e2 : (m.step j).run j = (Run.step W m.files (m.run j)).2 := if_pos rfl
        rw [e2, List.count_append, List.count_singleton_self]
        exact (ih1 j).own W
      · have e2 : (m.step i).run j = m.run j := if_neg hji
        rw [e2, List.count_append, List.count_singleton, if_neg (by simpa using Ne.symm hji), add_zero]
        refine (ih1 j).other W fun l hl => ?_
        refine Run.step_frame W (ih1 i).of m.files l fun hw => ?_
        obtain ⟨n1, n2⟩ := hc i j (Ne.symm hji) l hw
        rcases hl with hl | hl
        · exact n1 hl
        · exact n2 hl
    · intro l hl
      exact (Run.step_frame W (ih1 i).of m.files l (hl i)).trans (ih2 l hl)

/-- C93: at any time, under any schedule, and whichever processes have been killed, each process has made the first of the changes it makes
when it runs alone, its files are as these changes leave them, and no other file has changed. -/
theorem concurrent_runs (c : ι → Command) (hc : Independent W c) (fs : Files W.Loc) (schedule : List ι) :
    (∀ i, ∃ es, es <+: ((c i).alone W fs).1 ∧
      (∀ l ∈ (c i).writes W, ((launch W c fs).exec schedule).files l = W.after fs es l) ∧
      ((((launch W c fs).exec schedule).run i).Ended →
        es = ((c i).alone W fs).1 ∧ (((launch W c fs).exec schedule).run i).stop = ((c i).alone W fs).2)) ∧
    ∀ l, (∀ i, l ∉ (c i).writes W) → ((launch W c fs).exec schedule).files l = fs l := by
  obtain ⟨h1, h2⟩ := machines_inStep W c hc fs schedule
  refine ⟨fun i => ?_, h2⟩
  obtain ⟨_, es, e1, e2, _⟩ := h1 i
  set r := ((launch W c fs).exec schedule).run i with hr
  refine ⟨es, ⟨_, (congrArg Prod.fst e1).symm⟩, fun l hl => e2 l (Or.inl hl), fun hend => ?_⟩
  have hrest : Run.rest W (W.after fs es) r = ([], r.stop) := by
    obtain ⟨g1, g2⟩ := hend
    unfold Run.rest
    rw [g1]
    cases hs : r.stop with
    | some p => rfl
    | none =>
      rcases g2 with g2 | g2
      · exact absurd hs g2
      · dsimp only
        rw [g2]
        rfl
  rw [hrest, List.append_nil] at e1
  rw [e1]
  exact ⟨rfl, rfl⟩

/-- C93: a process ends, whatever the others do, once it was allowed to make as many steps as it has changes to make and inputs to read. -/
theorem concurrent_ends (c : ι → Command) (hc : Independent W c) (fs : Files W.Loc) (schedule : List ι) (i : ι)
    (h : ((c i).alone W fs).1.length + (c i).inputs.length ≤ schedule.count i) : (((launch W c fs).exec schedule).run i).Ended := by
  obtain ⟨_, es, _, _, e3⟩ := (machines_inStep W c hc fs schedule).1 i
  exact Run.ended_of_steps W (W.after fs es) _ (by omega)

/-- C93: when all processes have ended, it does not matter in which order they ran: every file is as one of the processes alone leaves it. -/
theorem concurrent_result (c : ι → Command) (hc : Independent W c) (fs : Files W.Loc) (schedule : List ι)
    (hend : ∀ i, (((launch W c fs).exec schedule).run i).Ended) :
    (∀ i, (((launch W c fs).exec schedule).run i).stop = ((c i).alone W fs).2) ∧
    (∀ i, ∀ l ∈ (c i).writes W, ((launch W c fs).exec schedule).files l = W.after fs ((c i).alone W fs).1 l) ∧
    ∀ l, (∀ i, l ∉ (c i).writes W) → ((launch W c fs).exec schedule).files l = fs l := by
  obtain ⟨h1, h2⟩ := concurrent_runs W c hc fs schedule
  refine ⟨fun i => ?_, fun i l hl => ?_, h2⟩
  · obtain ⟨es, _, _, e3⟩ := h1 i
    exact (e3 (hend i)).2
  · obtain ⟨es, _, e2, e3⟩ := h1 i
    rw [e2 l hl, (e3 (hend i)).1]

end
end Sia
