import Verif.Props.SharedOutputsExamples

/-! C100: a process ends if it is scheduled again and again. -/
namespace Sia

section
variable {F : Type} [FloatOps F] (W : World F)

/-- A step of a process that has not ended leaves it fewer inputs, or as many and fewer calls. -/
theorem writer_step_less (fs : Files W.Loc) (r : Writer W) (h : ¬ r.Ended) :
    (Writer.step W fs r).2.todo.length < r.todo.length ∨
      ((Writer.step W fs r).2.todo.length = r.todo.length ∧ (Writer.step W fs r).2.calls.length < r.calls.length) := by
  unfold Writer.step
  cases hc : r.calls with
  | cons e es => exact .inr ⟨rfl, Nat.lt_succ_self _⟩
  | nil =>
    dsimp only
    cases hs : r.stop with
    | some p => exact absurd ⟨hc, .inl (by rw [hs]; exact fun h => (by cases h))⟩ h
    | none =>
      cases ht : r.todo with
      | nil => exact absurd ⟨hc, .inr ht⟩ h
      | cons x rest => exact .inl (Nat.lt_succ_self _)

/-- A process that has ended does nothing. -/
theorem writer_step_ended (fs : Files W.Loc) (r : Writer W) (h : r.Ended) : Writer.step W fs r = (fs, r) := by
  obtain ⟨h1, h2⟩ := h
  unfold Writer.step
  rw [h1]
  cases hs : r.stop with
  | some p => rfl
  | none =>
    rcases h2 with h2 | h2
    · exact absurd hs h2
    · rw [h2]

variable {ι : Type} [DecidableEq ι]

/-- The state after the first `n` steps of an infinite schedule. -/
def Writers.first {W : World F} (m : Writers W ι) (schedule : Nat → ι) (n : Nat) : Writers W ι := m.exec ((List.range n).map schedule)

theorem writers_first_succ (m : Writers W ι) (schedule : Nat → ι) (n : Nat) : m.first schedule (n + 1) = (m.first schedule n).step (schedule n) := by
  unfold Writers.first Writers.exec
  rw [List.range_succ, List.map_append, List.foldl_append]
  rfl

/-- A process that has ended stays as it is. -/
theorem writers_ended_stays (m : Writers W ι) (schedule : Nat → ι) (i : ι) (n k : Nat) (h : ((m.first schedule n).run i).Ended) :
    (m.first schedule (n + k)).run i = (m.first schedule n).run i := by
  induction k with
  | zero => rfl
  | succ k ih =>
    rw [← Nat.add_assoc, writers_first_succ]
    by_cases hi : i = schedule (n + k)
    · show (if i = schedule (n + k) then _ else _) = _
      rw [if_pos hi, ← hi, ih, writer_step_ended W _ _ h]
    · show (if i = schedule (n + k) then _ else _) = _
      rw [if_neg hi, ih]

/-- C100: whatever the processes do, and whatever the files hold, a process that is scheduled again and again ends, and stays as it ended. -/
theorem shared_ends (c : ι → Command) (fs : Files W.Loc) (schedule : Nat → ι) (i : ι) (hfair : ∀ n, ∃ k, schedule (n + k) = i) :
    ∃ n, (((startWriters W c fs).first schedule n).run i).Ended ∧
      ∀ k, ((startWriters W c fs).first schedule (n + k)).run i = ((startWriters W c fs).first schedule n).run i := by
  set m := startWriters W c fs with hm
  have main : ∀ (a b n : Nat), ((m.first schedule n).run i).todo.length = a → ((m.first schedule n).run i).calls.length = b →
      ∃ n, ((m.first schedule n).run i).Ended := by
    intro a
    induction a using Nat.strong_induction_on with
    | _ a iha =>
      intro b
      induction b using Nat.strong_induction_on with
      | _ b ihb =>
        intro n ha hb
        by_cases hend : ((m.first schedule n).run i).Ended
        · exact ⟨n, hend⟩
        -- up to the next step of the process nothing happens to it
        obtain ⟨k, hk⟩ : ∃ k, schedule (n + k) = i ∧ ∀ j, j < k → schedule (n + j) ≠ i := by
          classical
          exact ⟨Nat.find (hfair n), Nat.find_spec (hfair n), fun j hj => Nat.find_min (hfair n) hj⟩
        have hsame : ∀ j, j ≤ k → (m.first schedule (n + j)).run i = (m.first schedule n).run i := by
          intro j
          induction j with
          | zero => exact fun _ => rfl
          | succ j ih =>
            intro hj
            rw [← Nat.add_assoc, writers_first_succ]
            show (if i = schedule (n + j) then _ else _) = _
            rw [if_neg fun h => hk.2 j (by omega) h.symm]
            exact ih (by omega)
        have hstep : (m.first schedule (n + k + 1)).run i = (Writer.step W (m.first schedule (n + k)).files ((m.first schedule n).run i)).2 := by
          rw [writers_first_succ]
          show (if i = schedule (n + k) then _ else _) = _
          rw [if_pos hk.1.symm, hk.1, hsame k le_rfl]
        rcases writer_step_less W (m.first schedule (n + k)).files _ hend with hl | ⟨hl, hl'⟩
        · rw [← hstep, ha] at hl
          exact iha _ hl _ (n + k + 1) rfl rfl
        · rw [← hstep] at hl hl'
          rw [hb] at hl'
          exact ihb _ hl' (n + k + 1) (hl.trans ha) rfl
  obtain ⟨n, hn⟩ := main _ _ 0 rfl rfl
  exact ⟨n, hn, fun k => writers_ended_stays W m schedule i n k hn⟩

/-- C100: if finitely many processes run the same command, which completes without an error when it is alone, and each is scheduled again
and again, then from some moment on the files are those the command leaves when it is alone. -/
theorem shared_settles [Finite ι] [Nonempty ι] (hA : W.Appends) (suffix : List Char) (folder : Option PathStr) (fs : Files W.Loc)
    (inputs : List PathStr) (results : List (W.Loc × List UInt8)) (h : CleanBatch W suffix folder fs inputs results)
    (schedule : Nat → ι) (hfair : ∀ i n, ∃ k, schedule (n + k) = i) :
    ∃ n, ∀ k, let m := (startWriters W (fun _ : ι => ⟨suffix, folder, inputs⟩) fs).first schedule (n + k)
      (∀ i, (m.run i).Ended ∧ (m.run i).stop = none) ∧ m.files = W.after fs (processInputs W suffix folder fs inputs).1 := by
  choose n hn hs using fun i => shared_ends W (fun _ : ι => ⟨suffix, folder, inputs⟩) fs schedule i (hfair i)
  obtain ⟨N, hN⟩ := (Set.finite_range n).bddAbove
  refine ⟨N, fun k => ?_⟩
  intro m
  have hend : ∀ i, (m.run i).Ended := by
    intro i
    have hle : n i ≤ N := hN ⟨i, rfl⟩
    have e : N + k = n i + (N + k - n i) := by omega
    show ((Writers.first _ schedule (N + k)).run i).Ended
    rw [e, hs i]
    exact hn i
  obtain ⟨i0⟩ := (inferInstance : Nonempty ι)
  obtain ⟨g1, g2⟩ := shared_same_command W hA suffix folder fs inputs results h ((List.range (N + k)).map schedule) ⟨i0, hend i0⟩ fun i _ => hend i
  exact ⟨fun i => ⟨hend i, g1 i⟩, g2⟩

end

/-- The hypotheses are met: three processes in turn. -/
example : ∃ v n, ∀ k, ((startWriters toyWorld (fun _ : Fin 3 => ⟨"wm".toList, some "out".toList, ["in/a.png".toList, "in/b.png".toList]⟩)
    (fun _ => some [7])).first (fun t => ⟨t % 3, Nat.mod_lt _ (by decide)⟩) (n + k)).files "out/b-wm.png".toList = some [1, v] := by
  obtain ⟨v, hv⟩ := toyWorld_clean
  obtain ⟨n, hn⟩ := shared_settles toyWorld (ι := Fin 3) toyWorld_appends _ _ _ _ _ hv (fun t => ⟨t % 3, Nat.mod_lt _ (by decide)⟩)
    fun i n => ⟨i.1 + 2 * n, Fin.ext (by show (n + (i.1 + 2 * n)) % 3 = i.1; have := i.2; omega)⟩
  obtain ⟨-, b, -⟩ := batch_completes toyWorld _ _ _ _ _ hv
  refine ⟨v, n, fun k => ?_⟩
  rw [(hn k).2]
  exact b ("out/b-wm.png".toList, [1, v]) (by simp)

end Sia
