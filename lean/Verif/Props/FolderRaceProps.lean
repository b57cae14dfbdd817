import Verif.Spec.FolderRaceSpec
import Verif.Props.TreeProps

/-! C98: making the output folder while other processes do. -/
namespace Sia

section
variable {F : Type} (H : Host F)

theorem prepareStep_snd (o : RawPath) (s : Disk × Prep) : (H.prepareStep o s).2 = (H.prepare s.1 o s.2).2 := rfl

/-- How many calls a process can still make. -/
def Prep.left (n : Nat) : Prep → Nat
  | .start => 3 * n + 5
  | .startExists => 3 * n + 4
  | .make p above => 3 * p.parts.length + 2 * above.length + 3
  | .check _ above => 2 * above.length + 2
  | .remake above => 2 * above.length + 1
  | .ended _ => 0

theorem left_decreases (D : Disk) (o : RawPath) (s : Prep) : (H.prepare D o s).2.left o.parts.length ≤ s.left o.parts.length - 1 := by
  cases s with
  | start =>
    simp only [Host.prepare]
    split <;> simp only [Prep.left, List.length_nil] <;> omega
  | startExists =>
    simp only [Host.prepare]
    split <;> simp only [Prep.left, List.length_nil] <;> omega
  | make p above =>
    simp only [Host.prepare]
    split
    · simp only [Prep.left]
      omega
    · split
      · simp only [Prep.left]
        omega
      · split
        · simp only [Prep.left]
          omega
        · rename_i q hq
          have := RawPath.parent_length p q hq
          simp only [Prep.left, List.length_cons]
          omega
      · simp only [Prep.left]
        omega
  | check p above =>
    simp only [Host.prepare]
    split <;> simp only [Prep.left] <;> omega
  | remake above =>
    cases above with
    | nil => simp [Host.prepare, Prep.left]
    | cons p above =>
      simp only [Host.prepare]
      split <;> simp only [Prep.left, List.length_cons] <;> omega
  | ended r => simp [Host.prepare, Prep.left]

theorem left_zero (n : Nat) (s : Prep) (h : s.left n = 0) : ∃ r, s = .ended r := by
  cases s with
  | ended r => exact ⟨r, rfl⟩
  | start => simp [Prep.left] at h
  | startExists => simp [Prep.left] at h
  | make p above => simp [Prep.left] at h
  | check p above => simp [Prep.left] at h
  | remake above => simp [Prep.left] at h

/-- Where a process is after its calls, if the tree is `trees k` at its call number `k`. -/
def Host.prepareOn {F : Type} (H : Host F) (o : RawPath) (trees : Nat → Disk) : Nat → Prep
  | 0 => .start
  | k + 1 => (H.prepare (trees k) o (H.prepareOn o trees k)).2

/-- C98: whatever happens to the tree meanwhile, a process is past the making of its folder (or has ended) after a number of calls that is at
most three for each part of the path, and five. -/
theorem prepare_ends (o : RawPath) (trees : Nat → Disk) : ∃ r, H.prepareOn o trees (3 * o.parts.length + 5) = .ended r := by
  have h : ∀ k, (H.prepareOn o trees k).left o.parts.length ≤ 3 * o.parts.length + 5 - k := by
    intro k
    induction k with
    | zero => exact le_rfl
    | succ k ih =>
      have := left_decreases H (trees k) o (H.prepareOn o trees k)
      show (H.prepare (trees k) o (H.prepareOn o trees k)).2.left o.parts.length ≤ _
      omega
  exact left_zero o.parts.length _ (by have := h (3 * o.parts.length + 5); omega)

/-- The calls of a process on its own. -/
def Host.prepareAlone {F : Type} (H : Host F) (o : RawPath) (n : Nat) (s : Disk × Prep) : Disk × Prep := (H.prepareStep o)^[n] s

theorem alone_trans (o : RawPath) {a b c : Disk × Prep} (h1 : ∃ k, H.prepareAlone o k a = b) (h2 : ∃ k, H.prepareAlone o k b = c) :
    ∃ k, H.prepareAlone o k a = c := by
  obtain ⟨k, hk⟩ := h1
  obtain ⟨k', hk'⟩ := h2
  refine ⟨k' + k, ?_⟩
  unfold Host.prepareAlone at hk hk' ⊢
  rw [Function.iterate_add_apply, hk, hk']

theorem alone_step (o : RawPath) {a b : Disk × Prep} (h : H.prepareStep o a = b) : ∃ k, H.prepareAlone o k a = b := ⟨1, h⟩

theorem alone_check (o p : RawPath) (D : Disk) (above : List RawPath) : ∃ k, H.prepareAlone o k (D, .check p above) =
    (D, if D.dirAt H.cwd p = true then .remake above else .ended (some .fileError)) := alone_step H o rfl

theorem make_step (o p : RawPath) (he : p.isEmpty = false) (D : Disk) (above : List RawPath) :
    H.prepareStep o (D, .make p above) = match H.mkdir D p with
      | .ok l => (D.addDir l, .remake above)
      | .error .notFound =>
        match p.parent with
        | none => (D, .ended (some .fileError))
        | some q => (D, .make q (p :: above))
      | .error _ => (D, .check p above) := by
  unfold Host.prepareStep Host.prepare
  simp only [he, Bool.false_eq_true, if_false]
  cases H.mkdir D p with
  | ok l => rfl
  | error e =>
    cases e
    · cases p.parent <;> rfl
    all_goals rfl

theorem remake_step (o p : RawPath) (D : Disk) (above : List RawPath) :
    H.prepareStep o (D, .remake (p :: above)) = match H.mkdir D p with
      | .ok l => (D.addDir l, .remake above)
      | .error _ => (D, .check p above) := by
  simp only [Host.prepareStep, Host.prepare]
  cases H.mkdir D p <;> rfl

theorem made_orphan (D : Disk) (p : RawPath) (he : p.isEmpty = false) (h : H.mkdir D p = .error .notFound) (hq : p.parent = none) :
    H.createDirAll D p = ([], some .refused) := by
  rw [Host.createDirAll, he]
  simp only [Bool.false_eq_true, if_false, h]
  split
  · rfl
  · rename_i q hq'
    cases hq.symm.trans hq'

/-- `create_dir_all` undisturbed. -/
theorem make_alone (o : RawPath) (n : Nat) : ∀ p : RawPath, p.parts.length = n → ∀ (D : Disk) (above : List RawPath),
    ∃ k, H.prepareAlone o k (D, .make p above) = (D.addDirs (H.createDirAll D p).1,
      if (H.createDirAll D p).2 = none then .remake above else .ended (some .fileError)) := by
  induction n using Nat.strong_induction_on with
  | _ n ih =>
  intro p hp D above
  by_cases he' : p.isEmpty = true
  · rw [Host.createDirAll]
    simp only [he', if_true]
    refine alone_step H o ?_
    simp [Host.prepareStep, Host.prepare, he', Disk.addDirs]
  have he : p.isEmpty = false := by simpa using he'
  have hstep := make_step H o p he D above
  cases hm : H.mkdir D p with
  | ok l =>
    rw [hm] at hstep
    rw [made_ok H D p he l hm]
    exact alone_step H o hstep
  | error e =>
    by_cases hne : e = .notFound
    · subst hne
      rw [hm] at hstep
      cases hq : p.parent with
      | none =>
        rw [hq] at hstep
        rw [made_orphan H D p he hm hq]
        exact alone_step H o hstep
      | some q =>
        rw [hq] at hstep
        have hl := RawPath.parent_length p q hq
        have h1 := ih _ (hp ▸ hl) q rfl D (p :: above)
        have hd := made_deeper H D p q he hm hq
        rcases hc : H.createDirAll D q with ⟨ls, r⟩
        rw [hc] at h1 hd
        refine alone_trans H o (alone_step H o hstep) (alone_trans H o h1 ?_)
        cases r with
        | some e =>
          have hd' : H.createDirAll D p = (ls, some e) := hd
          rw [hd']
          exact ⟨0, rfl⟩
        | none =>
          have hr := remake_step H o p (D.addDirs ls) above
          simp only [if_true]
          cases hm2 : H.mkdir (D.addDirs ls) p with
          | ok l =>
            rw [hm2] at hr
            have hd' : H.createDirAll D p = (ls ++ [l], none) := by
              rw [hd]
              simp only [hm2]
            rw [hd', addDirs_append]
            exact alone_step H o hr
          | error e2 =>
            rw [hm2] at hr
            have hd' : H.createDirAll D p = if (D.addDirs ls).dirAt H.cwd p then (ls, none) else (ls, some e2) := by
              rw [hd]
              simp only [hm2]
            refine alone_trans H o (alone_step H o hr) (alone_trans H o (alone_check H o p _ above) ⟨0, ?_⟩)
            rw [hd']
            by_cases hx : (D.addDirs ls).dirAt H.cwd p = true
            · rw [if_pos hx, if_pos hx]
              rfl
            · rw [if_neg hx, if_neg hx]
              rfl
    · have hstep' : H.prepareStep o (D, .make p above) = (D, .check p above) := by
        rw [hstep, hm]
        cases e
        · exact absurd rfl hne
        all_goals rfl
      refine alone_trans H o (alone_step H o hstep') (alone_trans H o (alone_check H o p _ above) ⟨0, ?_⟩)
      rw [made_error H D p he e hne hm]
      by_cases hx : D.dirAt H.cwd p = true
      · rw [if_pos hx, if_pos hx]
        rfl
      · rw [if_neg hx, if_neg hx]
        rfl

/-- C98: a process on its own does what C95 says: the same folders, the same end. -/
theorem prepare_alone (o : RawPath) (D : Disk) : ∃ k,
    H.prepareAlone o k (D, .start) =
      if !D.dirAt H.cwd o && D.existsAt H.cwd o then (D, .ended (some .exitOne))
      else (D.addDirs (H.createDirAll D o).1, .ended (if (H.createDirAll D o).2 = none then none else some .fileError)) := by
  have hend : ∃ k, H.prepareAlone o k (D, .make o []) =
      (D.addDirs (H.createDirAll D o).1, .ended (if (H.createDirAll D o).2 = none then none else some .fileError)) := by
    refine alone_trans H o (make_alone H o _ o rfl D []) (alone_step H o ?_)
    by_cases hc : (H.createDirAll D o).2 = none
    · rw [if_pos hc, if_pos hc]
      rfl
    · rw [if_neg hc, if_neg hc]
      rfl
  by_cases hd : D.dirAt H.cwd o = true
  · have h2 : H.prepareStep o (D, .start) = (D, .make o []) := by
      simp [Host.prepareStep, Host.prepare, hd]
    rw [hd]
    exact alone_trans H o (alone_step H o h2) hend
  · have h2 : H.prepareStep o (D, .start) = (D, .startExists) := by
      simp [Host.prepareStep, Host.prepare, hd]
    refine alone_trans H o (alone_step H o h2) ?_
    by_cases hx : D.existsAt H.cwd o = true
    · refine alone_step H o ?_
      simp [Host.prepareStep, Host.prepare, hx, hd]
    · have h4 : H.prepareStep o (D, .startExists) = (D, .make o []) := by
        simp [Host.prepareStep, Host.prepare, hx]
      refine alone_trans H o (alone_step H o h4) ?_
      have : (!D.dirAt H.cwd o && D.existsAt H.cwd o) = false := by simp [hx]
      rw [this]
      exact hend

end
end Sia
