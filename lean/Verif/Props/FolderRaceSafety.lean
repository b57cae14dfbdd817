import Verif.Props.FolderRaceProps

/-! C98: making the output folder while other processes do: no process is disturbed, except in the check before. -/
namespace Sia

section
variable {F : Type} (H : Host F)

theorem onWay_last (p : RawPath) : onWay H p p.parts.length = wayEnd H p := by
  unfold onWay wayEnd
  rw [List.take_length]

theorem onWay_succ (p : RawPath) (j : Nat) (hj : j < p.parts.length) : onWay H p (j + 1) = onWay H p j ++ [p.parts[j]] := by
  unfold onWay
  rw [List.take_succ_eq_append_getElem hj, List.append_assoc]

/-- The path to a place on the way. -/
def wayPath (p : RawPath) (j : Nat) : RawPath := ⟨p.abs, p.parts.take j⟩

theorem wayPath_last (p : RawPath) : wayPath p p.parts.length = p := by
  unfold wayPath
  rw [List.take_length]

theorem way_above {D : Disk} (hD : D.Sound) (p : RawPath) (j k : Nat) (hjk : j ≤ k) (h : D.isDir (onWay H p k) = true) :
    D.isDir (onWay H p j) = true := by
  refine hD.above _ ((p.parts.take k).drop j) ?_
  unfold onWay at h ⊢
  rw [List.append_assoc]
  have : p.parts.take j ++ (p.parts.take k).drop j = p.parts.take k := by
    have h1 : p.parts.take j = (p.parts.take k).take j := by rw [List.take_take, min_eq_left hjk]
    rw [h1, List.take_append_drop]
  rw [this]
  exact h

theorem walk_way {D : Disk} (hD : D.Sound) (p : RawPath) (hn : ∀ n ∈ p.parts, ProperName n) (j : Nat)
    (h : D.isDir (onWay H p j) = true) : D.walk (if p.abs then [] else H.cwd) (p.parts.take j) = .ok (onWay H p j) := by
  refine walk_down D _ _ (fun n hm => hn n (List.mem_of_mem_take hm)) fun k hk => ?_
  have hk' : k ≤ j := by
    rw [List.length_take] at hk
    omega
  rw [List.take_take, min_eq_left hk']
  exact way_above H hD p k j hk' h

/-- `mkdir` for a place on a clear way. -/
theorem mkdir_way {D : Disk} (hD : D.Sound) (hc : D.isDir H.cwd = true) (p : RawPath) (hp : WayClear H D p) (j : Nat)
    (hj : j < p.parts.length) :
    (D.isDir (onWay H p j) = false ∧ H.mkdir D (wayPath p (j + 1)) = .error .notFound) ∨
    (D.isDir (onWay H p j) = true ∧ D.isDir (onWay H p (j + 1)) = true ∧ H.mkdir D (wayPath p (j + 1)) = .error .alreadyExists) ∨
    (D.isDir (onWay H p j) = true ∧ D.occupied (onWay H p (j + 1)) = false ∧ H.mkdir D (wayPath p (j + 1)) = .ok (onWay H p (j + 1))) := by
  have hmk := mkdir_plain H D p.abs (p.parts.take j) p.parts[j] (hp.names _ (List.getElem_mem hj))
  have hq : (⟨p.abs, p.parts.take j ++ [p.parts[j]]⟩ : RawPath) = wayPath p (j + 1) := by
    unfold wayPath
    rw [List.take_succ_eq_append_getElem hj]
  rw [hq] at hmk
  by_cases hd : D.isDir (onWay H p j) = true
  · right
    rw [walk_way H hD p hp.names j hd] at hmk
    dsimp only at hmk
    rw [if_pos hd, ← onWay_succ H p j hj] at hmk
    by_cases hd' : D.isDir (onWay H p (j + 1)) = true
    · left
      have : D.occupied (onWay H p (j + 1)) = true := by
        unfold Disk.occupied
        rw [hd']
        rfl
      rw [if_pos this] at hmk
      exact ⟨hd, hd', hmk⟩
    · right
      have hno : D.occupied (onWay H p (j + 1)) = false := by
        unfold Disk.occupied
        rw [hp.noFile (j + 1) hj]
        simpa using hd'
      have hal : H.allowed (onWay H p (j + 1)) = true := (hp.mayMake (j + 1) hj).resolve_left hd'
      rw [if_neg (by simp [hno]), if_pos hal] at hmk
      exact ⟨hd, hno, hmk⟩
  · left
    have hd0 : D.isDir (onWay H p j) = false := by simpa using hd
    refine ⟨hd0, ?_⟩
    have hbase : D.isDir (if p.abs then [] else H.cwd) = true := by
      cases p.abs
      · exact hc
      · exact hD.root
    by_cases hall : ∀ k < (p.parts.take j).length, D.isDir ((if p.abs then [] else H.cwd) ++ (p.parts.take j).take k) = true
    · have hw := walk_down D (if p.abs then [] else H.cwd) (p.parts.take j) (fun n hm => hp.names n (List.mem_of_mem_take hm)) hall
      rw [hw] at hmk
      dsimp only at hmk
      have hd1 : D.isDir ((if p.abs = true then [] else H.cwd) ++ List.take j p.parts) = false := hd0
      rw [hd1] at hmk
      rw [hmk, if_neg (by simp)]
      have hf := hp.noFile j hj.le
      unfold onWay at hf
      unfold Disk.noFolder
      rw [hf]
      rfl
    · push Not at hall
      obtain ⟨k, hk, hkd⟩ := hall
      have hw := walk_missing D (if p.abs then [] else H.cwd) (p.parts.take j) (fun n hm => hp.names n (List.mem_of_mem_take hm))
        (fun k hk => by
          have hk' : k ≤ j := by
            rw [List.length_take] at hk
            omega
          rw [List.take_take, min_eq_left hk']
          exact hp.noFile k (by omega)) ⟨k, hk, by simpa using hkd⟩
      rw [hw] at hmk
      exact hmk

theorem walk_proper_ok (D : Disk) (cur : Place) (names : List (List Char)) (hn : ∀ n ∈ names, ProperName n) (l : Place)
    (h : D.walk cur names = .ok l) : l = cur ++ names := by
  induction names generalizing cur with
  | nil =>
    cases h
    simp
  | cons n names ih =>
    simp only [Disk.walk] at h
    split at h
    · rw [onward_proper _ _ (hn n List.mem_cons_self)] at h
      rw [ih _ (fun m hm => hn m (List.mem_cons_of_mem _ hm)) h]
      simp
    · cases h

theorem dirAt_way {D : Disk} (hD : D.Sound) (p : RawPath) (hn : ∀ n ∈ p.parts, ProperName n) (j : Nat)
    (he : (wayPath p j).isEmpty = false) (h : D.isDir (onWay H p j) = true) : D.dirAt H.cwd (wayPath p j) = true := by
  unfold Disk.dirAt Disk.find
  rw [he]
  simp only [Bool.false_eq_true, if_false]
  show (match D.walk (if p.abs then [] else H.cwd) (p.parts.take j) with | .ok l => D.isDir l | .error _ => false) = true
  rw [walk_way H hD p hn j h]
  exact h

theorem existsAt_way {D : Disk} (p : RawPath) (hp : WayClear H D p) (h : D.existsAt H.cwd p = true) : D.isDir (wayEnd H p) = true := by
  unfold Disk.existsAt Disk.find at h
  by_cases he : p.isEmpty = true
  · rw [he] at h
    cases h
  · rw [if_neg he] at h
    cases hw : D.walk (if p.abs then [] else H.cwd) p.parts with
    | error e =>
      rw [hw] at h
      cases h
    | ok l =>
      rw [hw] at h
      have hl := walk_proper_ok D _ _ hp.names l hw
      have hl' : l = wayEnd H p := hl
      subst hl'
      have h' : D.occupied (wayEnd H p) = true := h
      unfold Disk.occupied at h'
      have hf := hp.noFile p.parts.length le_rfl
      rw [onWay_last] at hf
      rw [hf] at h'
      simpa using h'

/-- The paths that wait for the first `j` names. -/
def ladder (p : RawPath) (j : Nat) : List RawPath := (List.range' (j + 1) (p.parts.length - j)).map (wayPath p)

theorem ladder_last (p : RawPath) : ladder p p.parts.length = [] := by
  unfold ladder
  rw [Nat.sub_self]
  rfl

theorem ladder_cons (p : RawPath) (j : Nat) (hj : j < p.parts.length) : ladder p j = wayPath p (j + 1) :: ladder p (j + 1) := by
  unfold ladder
  have : p.parts.length - j = (p.parts.length - (j + 1)) + 1 := by omega
  rw [this, List.range'_succ]
  rfl

/-- A process that is not disturbed: `D0` is the tree when it started, `D` the tree now. -/
def Fine (D0 D : Disk) (p : RawPath) : Prep → Prop
  | .start => True
  | .startExists => p.isEmpty = true ∨ D0.isDir (wayEnd H p) = false
  | .make q above => ∃ j ≤ p.parts.length, q = wayPath p j ∧ above = ladder p j
  | .check q above => ∃ j ≤ p.parts.length, q = wayPath p j ∧ q.isEmpty = false ∧ above = ladder p j ∧ D.isDir (onWay H p j) = true
  | .remake above => ∃ j ≤ p.parts.length, above = ladder p j ∧ D.isDir (onWay H p j) = true
  | .ended none => D.isDir (wayEnd H p) = true
  | .ended (some r) => r = .exitOne ∧ D0.isDir (wayEnd H p) = false ∧ D.isDir (wayEnd H p) = true

theorem Fine.grows {D0 D D' : Disk} {p : RawPath} {s : Prep} (hg : ∀ l, D.isDir l = true → D'.isDir l = true) (h : Fine H D0 D p s) :
    Fine H D0 D' p s := by
  cases s with
  | start => exact trivial
  | startExists => exact h
  | make q above => exact h
  | check q above =>
    obtain ⟨j, h1, h2, h3, h4, h5⟩ := h
    exact ⟨j, h1, h2, h3, h4, hg _ h5⟩
  | remake above =>
    obtain ⟨j, h1, h2, h3⟩ := h
    exact ⟨j, h1, h2, hg _ h3⟩
  | ended r =>
    cases r with
    | none => exact hg _ h
    | some r => exact ⟨h.1, h.2.1, hg _ h.2.2⟩

/-- One call of an undisturbed process: the tree stays a tree, only a folder on the way is made, and the process stays undisturbed. -/
theorem fine_step {D0 D : Disk} (h0 : ∀ l, D0.isDir l = true → D.isDir l = true) (hD : D.Sound) (hc : D.isDir H.cwd = true) (p : RawPath)
    (hp : WayClear H D p) (s : Prep) (h : Fine H D0 D p s) :
    let r := H.prepareStep p (D, s)
    r.1.Sound ∧ (∀ l, D.isDir l = true → r.1.isDir l = true) ∧ r.1.content = D.content ∧
      (∀ l, r.1.isDir l = true → D.isDir l = true ∨ ∃ k ≤ p.parts.length, l = onWay H p k) ∧ Fine H D0 r.1 p r.2 := by
  have hsame : ∀ s', H.prepareStep p (D, s) = (D, s') → Fine H D0 D p s' →
      let r := H.prepareStep p (D, s)
      r.1.Sound ∧ (∀ l, D.isDir l = true → r.1.isDir l = true) ∧ r.1.content = D.content ∧
      (∀ l, r.1.isDir l = true → D.isDir l = true ∨ ∃ k ≤ p.parts.length, l = onWay H p k) ∧ Fine H D0 r.1 p r.2 := by
    intro s' hs hf
    rw [hs]
    exact ⟨hD, fun _ h => h, rfl, fun _ h => .inl h, hf⟩
  have hbase : D.isDir (onWay H p 0) = true := by
    unfold onWay
    simp only [List.take_zero, List.append_nil]
    cases p.abs
    · exact hc
    · exact hD.root
  have hmade : ∀ j, j < p.parts.length → D.isDir (onWay H p j) = true → D.occupied (onWay H p (j + 1)) = false →
      H.prepareStep p (D, s) = (D.addDir (onWay H p (j + 1)), .remake (ladder p (j + 1))) →
      let r := H.prepareStep p (D, s)
      r.1.Sound ∧ (∀ l, D.isDir l = true → r.1.isDir l = true) ∧ r.1.content = D.content ∧
      (∀ l, r.1.isDir l = true → D.isDir l = true ∨ ∃ k ≤ p.parts.length, l = onWay H p k) ∧ Fine H D0 r.1 p r.2 := by
    intro j hj hd ho hs
    rw [hs]
    have ho' := ho
    rw [onWay_succ H p j hj] at ho'
    refine ⟨?_, fun l hl => ?_, rfl, fun l hl => ?_, j + 1, hj, rfl, ?_⟩
    · show (D.addDir (onWay H p (j + 1))).Sound
      rw [onWay_succ H p j hj]
      exact addDir_sound hD _ _ hd (hp.names _ (List.getElem_mem hj)) ho'
    · show (decide (l = _) || D.isDir l) = true
      rw [hl, Bool.or_true]
    · have hl' : (decide (l = onWay H p (j + 1)) || D.isDir l) = true := hl
      rw [Bool.or_eq_true, decide_eq_true_eq] at hl'
      rcases hl' with h | h
      · exact .inr ⟨j + 1, hj, h⟩
      · exact .inl h
    · show (decide (onWay H p (j + 1) = onWay H p (j + 1)) || _) = true
      simp
  have hne : ∀ j, (wayPath p (j + 1)).isEmpty = true → ¬ j < p.parts.length := by
    intro j he hj
    unfold wayPath RawPath.isEmpty at he
    rw [List.take_succ_eq_append_getElem hj, Bool.and_eq_true] at he
    have := he.2
    rw [List.isEmpty_iff] at this
    cases (List.append_eq_nil_iff.mp this).2
  cases s with
  | start =>
    by_cases hd : D.dirAt H.cwd p = true
    · refine hsame (.make p []) (by simp [Host.prepareStep, Host.prepare, hd]) ⟨p.parts.length, le_rfl, (wayPath_last p).symm, (ladder_last p).symm⟩
    · refine hsame .startExists (by simp [Host.prepareStep, Host.prepare, hd]) ?_
      by_cases he : p.isEmpty = true
      · exact .inl he
      · refine .inr ?_
        rw [Bool.eq_false_iff]
        intro hx
        have := dirAt_way H hD p hp.names p.parts.length (by rw [wayPath_last]; simpa using he) (by rw [onWay_last]; exact h0 _ hx)
        rw [wayPath_last] at this
        exact hd this
  | startExists =>
    by_cases hx : D.existsAt H.cwd p = true
    · refine hsame (.ended (some .exitOne)) (by simp [Host.prepareStep, Host.prepare, hx]) ⟨rfl, ?_, existsAt_way H p hp hx⟩
      rcases h with he | h
      · unfold Disk.existsAt Disk.find at hx
        rw [he] at hx
        cases hx
      · exact h
    · exact hsame (.make p []) (by simp [Host.prepareStep, Host.prepare, hx]) ⟨p.parts.length, le_rfl, (wayPath_last p).symm, (ladder_last p).symm⟩
  | make q above =>
    obtain ⟨j, hj, rfl, rfl⟩ := h
    by_cases he' : (wayPath p j).isEmpty = true
    · have hj0 : D.isDir (onWay H p j) = true := by
        cases j with
        | zero => exact hbase
        | succ j => exact absurd hj (hne j he')
      refine hsame (.remake (ladder p j)) (by simp [Host.prepareStep, Host.prepare, he']) ⟨j, hj, rfl, hj0⟩
    have he : (wayPath p j).isEmpty = false := by simpa using he'
    have hms := make_step H p (wayPath p j) he D (ladder p j)
    cases j with
    | zero =>
      have habs : p.abs = true := by
        unfold wayPath RawPath.isEmpty at he
        simpa using he
      have hmk : H.mkdir D (wayPath p 0) = .error .alreadyExists := by
        unfold wayPath
        rw [habs, List.take_zero]
        rfl
      rw [hmk] at hms
      exact hsame _ hms ⟨0, hj, rfl, he, rfl, hbase⟩
    | succ j =>
      rcases mkdir_way H hD hc p hp j hj with ⟨hd, hmk⟩ | ⟨hd, hd', hmk⟩ | ⟨hd, ho, hmk⟩
      · rw [hmk] at hms
        have hpar : (wayPath p (j + 1)).parent = some (wayPath p j) := by
          unfold wayPath
          rw [List.take_succ_eq_append_getElem hj]
          refine parent_plain p.abs (p.parts.take j) p.parts[j] fun m hm => ?_
          rw [← List.take_succ_eq_append_getElem hj] at hm
          exact hp.names m (List.mem_of_mem_take hm)
        rw [hpar] at hms
        refine hsame _ hms ⟨j, by omega, rfl, ?_⟩
        exact (ladder_cons p j hj).symm
      · rw [hmk] at hms
        exact hsame _ hms ⟨j + 1, hj, rfl, he, rfl, hd'⟩
      · rw [hmk] at hms
        exact hmade j hj hd ho hms
  | check q above =>
    obtain ⟨j, hj, rfl, he, rfl, hd⟩ := h
    refine hsame (.remake (ladder p j)) ?_ ⟨j, hj, rfl, hd⟩
    have := dirAt_way H hD p hp.names j he hd
    simp [Host.prepareStep, Host.prepare, this]
  | remake above =>
    obtain ⟨j, hj, rfl, hd⟩ := h
    by_cases hl : j = p.parts.length
    · subst hl
      rw [ladder_last] at hsame ⊢
      exact hsame (.ended none) rfl (by show D.isDir (wayEnd H p) = true; rw [← onWay_last]; exact hd)
    · have hj' : j < p.parts.length := by omega
      rw [ladder_cons p j hj'] at hsame hmade ⊢
      have hrs := remake_step H p (wayPath p (j + 1)) D (ladder p (j + 1))
      rcases mkdir_way H hD hc p hp j hj' with ⟨hd0, _⟩ | ⟨_, hd', hmk⟩ | ⟨_, ho, hmk⟩
      · rw [hd] at hd0
        cases hd0
      · rw [hmk] at hrs
        refine hsame _ hrs ⟨j + 1, hj', rfl, ?_, rfl, hd'⟩
        rw [Bool.eq_false_iff]
        exact fun he => hne j he hj'
      · rw [hmk] at hrs
        exact hmade j hj' hd ho hrs
  | ended r => exact hsame (.ended r) rfl h

variable {ι : Type} [DecidableEq ι]

theorem course_fine (o : ι → RawPath) (D : Disk) (hD : D.Sound) (hc : D.isDir H.cwd = true) (ho : ∀ i, WayClear H D (o i))
    (w : List ι) (s : Stage ι) (h : Course H o ⟨D, fun _ => .start⟩ w s) :
    s.disk.Sound ∧ (∀ l, D.isDir l = true → s.disk.isDir l = true) ∧
      (∀ i, ∀ k ≤ (o i).parts.length, s.disk.content (onWay H (o i) k) = none) ∧ ∀ i, Fine H D s.disk (o i) (s.pos i) := by
  induction h with
  | nil => exact ⟨hD, fun _ h => h, fun i => (ho i).noFile, fun _ => trivial⟩
  | step w s' i _ ih =>
    obtain ⟨h1, h2, h3, h4⟩ := ih
    have hclear : WayClear H s'.disk (o i) := ⟨(ho i).names, h3 i, fun k hk => ((ho i).mayMake k hk).imp_left (h2 _)⟩
    obtain ⟨r1, r2, r3, _, r5⟩ := fine_step H h2 h1 (h2 _ hc) (o i) hclear (s'.pos i) (h4 i)
    refine ⟨r1, fun l hl => r2 l (h2 l hl), fun j k hk => ?_, fun j => ?_⟩
    · show (H.prepareStep (o i) (s'.disk, s'.pos i)).1.content _ = none
      rw [r3]
      exact h3 j k hk
    · show Fine H D (H.prepareStep (o i) (s'.disk, s'.pos i)).1 (o j) (if j = i then (H.prepareStep (o i) (s'.disk, s'.pos i)).2 else s'.pos j)
      by_cases hji : j = i
      · rw [if_pos hji, hji]
        exact r5
      · rw [if_neg hji]
        exact (h4 j).grows H r2
  | other w s' D' _ hm ih =>
    obtain ⟨h1, h2, h3, h4⟩ := ih
    exact ⟨hm.sound, fun l hl => hm.grows l (h2 l hl), hm.noFile, fun i => (h4 i).grows H hm.grows⟩

theorem course_left (o : ι → RawPath) (s0 s : Stage ι) (w : List ι) (h : Course H o s0 w s) (i : ι) :
    (s.pos i).left (o i).parts.length ≤ (s0.pos i).left (o i).parts.length - w.count i := by
  induction h with
  | nil => simp
  | step w s' j _ ih =>
    show (if i = j then (H.prepareStep (o j) (s'.disk, s'.pos j)).2 else s'.pos i).left _ ≤ _
    by_cases hij : i = j
    · subst hij
      rw [if_pos rfl, List.count_append, List.count_singleton_self, prepareStep_snd]
      have := left_decreases H s'.disk (o i) (s'.pos i)
      show ((H.prepare s'.disk (o i) (s'.pos i)).2).left _ ≤ _
      omega
    · rw [if_neg hij, List.count_append, List.count_singleton]
      have : (j == i) = false := by simpa using fun e => hij e.symm
      rw [this]
      simpa using ih
  | other w s' D' _ _ ih => exact ih

/-- C98: processes that make their output folders at the same time, on clear ways, whatever the order of their calls and whatever else happens
(short of removing folders or putting files on the ways): the tree stays a tree and loses no folder; a process that got through has its
folder; none panics; and one that gives up does so in the check before (`exit(1)`: the folder was missing when the processes started,
and is there, made by another process, when it gives up). -/
theorem folder_race_safe (o : ι → RawPath) (D : Disk) (hD : D.Sound) (hc : D.isDir H.cwd = true) (ho : ∀ i, WayClear H D (o i))
    (w : List ι) (s : Stage ι) (h : Course H o ⟨D, fun _ => .start⟩ w s) :
    s.disk.Sound ∧ (∀ l, D.isDir l = true → s.disk.isDir l = true) ∧ ∀ i,
      (s.pos i = .ended none → s.disk.isDir (wayEnd H (o i)) = true) ∧
      ∀ p, s.pos i = .ended (some p) → p = .exitOne ∧ D.isDir (wayEnd H (o i)) = false ∧ s.disk.isDir (wayEnd H (o i)) = true := by
  obtain ⟨h1, h2, _, h4⟩ := course_fine H o D hD hc ho w s h
  refine ⟨h1, h2, fun i => ⟨fun e => ?_, fun p e => ?_⟩⟩
  · have := h4 i
    rw [e] at this
    exact this
  · have := h4 i
    rw [e] at this
    exact this

/-- C98: after at most three calls for each name of its path and five, every process is through, or has given up in the check before, which
happens only if its folder was missing when the processes started. -/
theorem folder_race_ends (o : ι → RawPath) (D : Disk) (hD : D.Sound) (hc : D.isDir H.cwd = true) (ho : ∀ i, WayClear H D (o i))
    (w : List ι) (s : Stage ι) (h : Course H o ⟨D, fun _ => .start⟩ w s) (i : ι) (hw : 3 * (o i).parts.length + 5 ≤ w.count i) :
    s.pos i = .ended none ∨ (s.pos i = .ended (some .exitOne) ∧ D.isDir (wayEnd H (o i)) = false) := by
  have hl := course_left H o _ s w h i
  have hl' : (s.pos i).left (o i).parts.length ≤ 3 * (o i).parts.length + 5 - w.count i := hl
  obtain ⟨r, hr⟩ := left_zero _ _ (show (s.pos i).left (o i).parts.length = 0 by omega)
  cases r with
  | none => exact .inl hr
  | some p =>
    obtain ⟨_, _, h3⟩ := folder_race_safe H o D hD hc ho w s h
    obtain ⟨e, hd, _⟩ := (h3 i).2 p hr
    subst e
    exact .inr ⟨hr, hd⟩

/-- C98: only folders on the ways are made (if nothing else happens). -/
theorem folder_race_made (o : ι → RawPath) (D : Disk) (hD : D.Sound) (hc : D.isDir H.cwd = true) (ho : ∀ i, WayClear H D (o i)) (w : List ι) :
    let s := w.foldl (Stage.step H o) ⟨D, fun _ => .start⟩
    s.disk.content = D.content ∧ ∀ l, s.disk.isDir l = true → D.isDir l = true ∨ ∃ i ∈ w, ∃ k ≤ (o i).parts.length, l = onWay H (o i) k := by
  intro s
  suffices hs : Course H o ⟨D, fun _ => .start⟩ w s ∧ s.disk.content = D.content ∧
      ∀ l, s.disk.isDir l = true → D.isDir l = true ∨ ∃ i ∈ w, ∃ k ≤ (o i).parts.length, l = onWay H (o i) k from hs.2
  show Course H o ⟨D, fun _ => .start⟩ w (w.foldl (Stage.step H o) ⟨D, fun _ => .start⟩) ∧ _
  simp only [s]
  clear s
  induction w using List.reverseRecOn with
  | nil => exact ⟨.nil, rfl, fun _ h => .inl h⟩
  | append_singleton w i ih =>
    obtain ⟨c, e, m⟩ := ih
    rw [List.foldl_append]
    simp only [List.foldl_cons, List.foldl_nil]
    generalize List.foldl (Stage.step H o) ⟨D, fun _ => .start⟩ w = s' at c e m ⊢
    obtain ⟨h1, h2, h3, h4⟩ := course_fine H o D hD hc ho w s' c
    have hclear : WayClear H s'.disk (o i) := ⟨(ho i).names, h3 i, fun k hk => ((ho i).mayMake k hk).imp_left (h2 _)⟩
    obtain ⟨_, _, r3, r4, _⟩ := fine_step H h2 h1 (h2 _ hc) (o i) hclear (s'.pos i) (h4 i)
    refine ⟨.step w s' i c, ?_, fun l hl => ?_⟩
    · show (H.prepareStep (o i) (s'.disk, s'.pos i)).1.content = _
      rw [r3, e]
    · rcases r4 l hl with h | ⟨k, hk, h⟩
      · rcases m l h with h | ⟨j, hj, h⟩
        · exact .inl h
        · exact .inr ⟨j, List.mem_append_left _ hj, h⟩
      · exact .inr ⟨i, by simp, k, hk, h⟩

/-- C98, the race in the check: two processes with the same output folder, missing in an existing folder. If the second asks whether it
exists just after the first has made it, the second gives up with status 1, saying that it is not a folder, although it is one. -/
theorem folder_race_lost (p : RawPath) (D : Disk) (hD : D.Sound) (hc : D.isDir H.cwd = true) (hp : WayClear H D p) (j : Nat)
    (hj : p.parts.length = j + 1) (hup : D.isDir (onWay H p j) = true) (hmiss : D.isDir (wayEnd H p) = false) :
    let s := [true, false, true, true, false].foldl (Stage.step H fun _ : Bool => p) ⟨D, fun _ => .start⟩
    s.pos false = .ended (some .exitOne) ∧ s.disk.isDir (wayEnd H p) = true ∧ s.disk.content (wayEnd H p) = none := by
  have he : p.isEmpty = false := by
    unfold RawPath.isEmpty
    cases hparts : p.parts with
    | nil =>
      rw [hparts] at hj
      cases hj
    | cons a b => simp
  have hlast := wayPath_last p
  rw [hj] at hlast
  have hend := onWay_last H p
  rw [hj] at hend
  have hx : D.existsAt H.cwd p = false := by
    rw [Bool.eq_false_iff]
    intro h
    rw [existsAt_way H p hp h] at hmiss
    cases hmiss
  have hd : D.dirAt H.cwd p = false := by
    rw [Bool.eq_false_iff]
    intro h
    unfold Disk.dirAt at h
    unfold Disk.existsAt at hx
    split at h
    · rename_i l hl
      rw [hl] at hx
      simp only [Disk.occupied, h] at hx
      cases hx
    · cases h
  have hmk : H.mkdir D p = .ok (wayEnd H p) ∧ D.occupied (wayEnd H p) = false := by
    rcases mkdir_way H hD hc p hp j (by omega) with ⟨h, _⟩ | ⟨_, h, _⟩ | ⟨_, h1, h2⟩
    · rw [hup] at h
      cases h
    · rw [hend, hmiss] at h
      cases h
    · rw [hlast, hend] at h2
      rw [hend] at h1
      exact ⟨h2, h1⟩
  have hDx : (D.addDir (wayEnd H p)).existsAt H.cwd p = true := by
    have hs : (D.addDir (wayEnd H p)).Sound := by
      have h1 := hmk.2
      rw [← hend, onWay_succ H p j (by omega)] at h1 ⊢
      exact addDir_sound hD _ _ hup (hp.names _ (List.getElem_mem (by omega))) h1
    have h2 : (D.addDir (wayEnd H p)).isDir (onWay H p p.parts.length) = true := by
      rw [onWay_last]
      show (decide (wayEnd H p = wayEnd H p) || _) = true
      simp
    have h3 := dirAt_way H hs p hp.names p.parts.length (by rw [wayPath_last]; exact he) h2
    rw [wayPath_last] at h3
    unfold Disk.dirAt at h3
    unfold Disk.existsAt
    split at h3
    · rename_i l hl
      simp only [Disk.occupied, h3, Bool.true_or]
    · cases h3
  have e1 : H.prepareStep p (D, .start) = (D, .startExists) := by simp [Host.prepareStep, Host.prepare, hd]
  have e2 : H.prepareStep p (D, .startExists) = (D, .make p []) := by simp [Host.prepareStep, Host.prepare, hx]
  have e3 : H.prepareStep p (D, .make p []) = (D.addDir (wayEnd H p), .remake []) := by
    rw [make_step H p p he D [], hmk.1]
  have e4 : H.prepareStep p (D.addDir (wayEnd H p), .startExists) = (D.addDir (wayEnd H p), .ended (some .exitOne)) := by
    simp [Host.prepareStep, Host.prepare, hDx]
  have hs : ([true, false, true, true, false].foldl (Stage.step H fun _ : Bool => p) ⟨D, fun _ => .start⟩) =
      ⟨D.addDir (wayEnd H p), fun b => if b = false then .ended (some .exitOne) else .remake []⟩ := by
    simp only [List.foldl_cons, List.foldl_nil]
    simp only [Stage.step, e1, e2, e3, e4, if_true, Bool.false_eq_true, Bool.true_eq_false, if_false]
    congr 1
    funext b
    cases b <;> simp
  rw [hs]
  refine ⟨rfl, ?_, ?_⟩
  · show (decide (wayEnd H p = wayEnd H p) || _) = true
    simp
  · have := hp.noFile p.parts.length le_rfl
    rw [onWay_last] at this
    exact this

end
end Sia
