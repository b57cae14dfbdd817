import Verif.Props.TreeProcessesProps

/-! C99: what is true at every moment when several processes of the tool run on one tree, and what follows. -/
namespace Sia

section
variable {F : Type} [FloatOps F] (H : Host F) {ι : Type}

/-- What a process has still to do after the changes pending, if its tree is `A`. -/
def restOf (j : Job) (A : Disk) (q : TreeProc) : List Change × Option Panic :=
  match q.stop with
  | some p => ([], some p)
  | none => H.inputs j.suffix j.output (A.changes q.pending) q.todo

/-- A process in its loop that has made the changes `don`, as it would alone; its tree would then be `A`. -/
structure InLoop (D : Disk) (jobs : ι → Job) (disk : Disk) (i : ι) (q : TreeProc) (A : Disk) (don : List Change) : Prop where
  tree : A = (H.prepared D (jobs i).output).changes don
  grown : GrownOnWays H D jobs A
  dirA : A.isDir (outDir H (jobs i)) = true
  dir : disk.isDir (outDir H (jobs i)) = true
  same : ∀ l, (jobs i).Writes H l ∨ (jobs i).Reads H D l → disk.content l = A.content l
  pending : ∀ c ∈ q.pending, ∃ l b, c = .file l b ∧ (jobs i).Writes H l ∧ D.isDir l = false
  todo : q.todo <:+ (jobs i).inputs
  all : (H.inputs (jobs i).suffix (jobs i).output (H.prepared D (jobs i).output) (jobs i).inputs).1 = don ++ q.pending ++ (restOf H (jobs i) A q).1
  stops : (H.inputs (jobs i).suffix (jobs i).output (H.prepared D (jobs i).output) (jobs i).inputs).2 = (restOf H (jobs i) A q).2

/-- The number of names in the `-o` path. -/
def Job.names (j : Job) : Nat := (parsePath (j.output.getD [])).parts.length

/-- What is true of process `i` when it has made `c` steps. -/
structure ProcInv (D : Disk) (jobs : ι → Job) (disk : Disk) (i : ι) (q : TreeProc) (c : Nat) : Prop where
  fresh : q.prep ≠ .ended none → q.todo = (jobs i).inputs ∧ q.pending = [] ∧ q.stop = none ∧
    (∀ l, (jobs i).Writes H l ∨ (jobs i).Reads H D l → disk.content l = D.content l) ∧ q.prep.left (jobs i).names ≤ 3 * (jobs i).names + 5 - c
  fine : ∀ o, (jobs i).output = some o → Fine H D disk (parsePath o) q.prep
  noOut : (jobs i).output = none → q.prep = .ended none
  loop : q.prep = .ended none → ∃ A don, InLoop H D jobs disk i q A don ∧
    (c ≤ 3 * (jobs i).names + 5 + don.length + ((jobs i).inputs.length - q.todo.length) ∨ q.Done)

/-- A step of another process does not disturb. -/
theorem other_step {D : Disk} {jobs : ι → Job} (ha : JobsApart H D jobs) {disk disk' : Disk} {i i' : ι} (hii : i' ≠ i) {q : TreeProc} {c : Nat}
    (hg : ∀ l, disk.isDir l = true → disk'.isDir l = true) (hw : ∀ l, disk'.content l ≠ disk.content l → (jobs i').Writes H l)
    (h : ProcInv H D jobs disk i q c) : ProcInv H D jobs disk' i q c := by
  have hsame : ∀ l, (jobs i).Writes H l ∨ (jobs i).Reads H D l → disk'.content l = disk.content l := by
    intro l hl
    by_contra hne
    obtain ⟨a1, a2, _⟩ := ha i' i hii l (hw l hne)
    exact hl.elim a1 a2
  refine ⟨fun hp => ?_, fun o ho => (h.fine o ho).grows H hg, h.noOut, fun hp => ?_⟩
  · obtain ⟨h1, h2, h3, h4, h5⟩ := h.fresh hp
    exact ⟨h1, h2, h3, fun l hl => (hsame l hl).trans (h4 l hl), h5⟩
  · obtain ⟨A, don, hl, hcount⟩ := h.loop hp
    exact ⟨A, don, ⟨hl.tree, hl.grown, hl.dirA, hg _ hl.dir, fun l hm => (hsame l hm).trans (hl.same l hm), hl.pending, hl.todo, hl.all, hl.stops⟩,
      hcount⟩

theorem advance_prep (j : Job) (D : Disk) (q : TreeProc) (h : ∀ r, q.prep ≠ .ended r) :
    H.advance j (D, q) = ((H.prepareStep (parsePath (j.output.getD [])) (D, q.prep)).1,
      { q with prep := (H.prepareStep (parsePath (j.output.getD [])) (D, q.prep)).2 }) := by
  obtain ⟨prep, todo, pending, stop⟩ := q
  cases prep with
  | ended r => exact absurd rfl (h r)
  | start => rfl
  | startExists => rfl
  | make p a => rfl
  | check p a => rfl
  | remake a => rfl

theorem left_pos (n : Nat) (s : Prep) (h : ∀ r, s ≠ .ended r) : 1 ≤ s.left n := by
  by_contra h'
  obtain ⟨r, hr⟩ := left_zero n s (by omega)
  exact h r hr

omit [FloatOps F] in
/-- The way to the output folder stays clear. -/
theorem clear_now {D : Disk} {jobs : ι → Job} (hr : ∀ i, (jobs i).Ready H D) (ha : JobsApart H D jobs) {disk : Disk}
    (hdisk : GrownOnWays H D jobs disk) (hcont : ∀ l, disk.content l ≠ D.content l → ∃ i, (jobs i).Writes H l) (i : ι) (o : PathStr)
    (ho : (jobs i).output = some o) : WayClear H disk (parsePath o) := by
  obtain ⟨hne, hw⟩ := (hr i).way o ho
  refine ⟨hw.names, fun k hk => ?_, fun k hk => (hw.mayMake k hk).imp_left (hdisk.grows _)⟩
  by_contra hne'
  rw [← hw.noFile k hk] at hne'
  obtain ⟨j, hj⟩ := hcont _ hne'
  have hpass : (jobs i).Passes H (onWay H (parsePath o) k) := ⟨o, ho, k, hk, rfl⟩
  by_cases e : j = i
  · subst e
    exact writes_not_passed H _ _ hj hpass
  · exact (ha j i e _ hj).2.2 hpass

/-- A step of the process itself. -/
theorem own_step {D : Disk} (hD : D.Sound) (hc : D.isDir H.cwd = true) {jobs : ι → Job} (hr : ∀ i, (jobs i).Ready H D) (ha : JobsApart H D jobs)
    {disk : Disk} (hdisk : GrownOnWays H D jobs disk) (hcont : ∀ l, disk.content l ≠ D.content l → ∃ i, (jobs i).Writes H l) (i : ι)
    (q : TreeProc) (c : Nat) (h : ProcInv H D jobs disk i q c) :
    let r := H.advance (jobs i) (disk, q)
    GrownOnWays H D jobs r.1 ∧ (∀ l, disk.isDir l = true → r.1.isDir l = true) ∧ (∀ l, r.1.content l ≠ disk.content l → (jobs i).Writes H l) ∧
      ProcInv H D jobs r.1 i r.2 (c + 1) := by
  have still : ∀ r, r = (disk, q) → (∃ p, q.prep = .ended (some p)) ∨ q.Done → GrownOnWays H D jobs r.1 ∧ (∀ l, disk.isDir l = true → r.1.isDir l = true) ∧
      (∀ l, r.1.content l ≠ disk.content l → (jobs i).Writes H l) ∧ ProcInv H D jobs r.1 i r.2 (c + 1) := by
    rintro r rfl hq
    refine ⟨hdisk, fun _ h => h, fun l hl => absurd rfl hl, fun hp => ?_, h.fine, h.noOut, fun hp => ?_⟩
    · obtain ⟨h1, h2, h3, h4, h5⟩ := h.fresh hp
      refine ⟨h1, h2, h3, h4, ?_⟩
      rcases hq with ⟨p, hq⟩ | hq
      · show q.prep.left _ ≤ _
        rw [hq]
        exact Nat.zero_le _
      · exact absurd hq.1 hp
    · obtain ⟨A, don, hl, _⟩ := h.loop hp
      refine ⟨A, don, hl, .inr ?_⟩
      rcases hq with ⟨p, hq⟩ | hq
      · have hp' : q.prep = .ended none := hp
        rw [hq] at hp'
        cases hp'
      · exact hq
  intro r
  by_cases hend : ∀ s, q.prep ≠ .ended s
  · -- making the folder
    cases ho : (jobs i).output with
    | none => exact absurd (h.noOut ho) (hend none)
    | some o =>
      obtain ⟨hne, hw⟩ := (hr i).way o ho
      have hclear := clear_now H hr ha hdisk hcont i o ho
      obtain ⟨r1, r2, r3, r4, r5⟩ := fine_step H hdisk.grows hdisk.sound (hdisk.grows _ hc) (parsePath o) hclear q.prep (h.fine o ho)
      have hr' : r = ((H.prepareStep (parsePath o) (disk, q.prep)).1, { q with prep := (H.prepareStep (parsePath o) (disk, q.prep)).2 }) := by
        have := advance_prep H (jobs i) disk q hend
        rw [ho] at this
        exact this
      have hn : (jobs i).names = (parsePath o).parts.length := by
        unfold Job.names
        rw [ho]
        rfl
      obtain ⟨f1, f2, f3, f4, f5⟩ := h.fresh (hend none)
      have hleft := left_decreases H disk (parsePath o) q.prep
      have hpos := left_pos (jobs i).names q.prep hend
      rw [hr']
      refine ⟨⟨r1, fun l hl => r2 l (hdisk.grows l hl), fun l hl => ?_⟩, r2, fun l hl => absurd (congrFun r3 l) hl, fun hp => ?_, fun o' ho' => ?_, fun hno => ?_,
        fun hp => ?_⟩
      · rcases r4 l hl with hl | ⟨k, hk, hl⟩
        · exact hdisk.made l hl
        · exact .inr ⟨i, o, ho, k, hk, hl⟩
      · refine ⟨f1, f2, f3, fun l hl => (congrFun r3 l).trans (f4 l hl), ?_⟩
        show (H.prepare disk (parsePath o) q.prep).2.left _ ≤ _
        rw [hn] at f5 hpos ⊢
        omega
      · rw [ho] at ho'
        cases ho'
        exact r5
      · rw [ho] at hno
        cases hno
      · obtain ⟨p1, p2, p3, _⟩ := prepared_facts H hD hc jobs i (hr i)
        refine ⟨H.prepared D (jobs i).output, [], ⟨rfl, p1, p3, ?_, fun l hl => ?_, fun c hc => ?_, ?_, ?_, ?_⟩, .inl ?_⟩
        · have hp' : (H.prepareStep (parsePath o) (disk, q.prep)).2 = .ended none := hp
          rw [hp'] at r5
          unfold outDir
          rw [ho]
          exact r5
        · rw [p2]
          exact (congrFun r3 l).trans (f4 l hl)
        · have hc' : c ∈ q.pending := hc
          rw [f2] at hc'
          cases hc'
        · show q.todo <:+ _
          rw [f1]
        · show _ = [] ++ q.pending ++ _
          unfold restOf
          dsimp only
          rw [f3, f2, f1]
          rfl
        · unfold restOf
          dsimp only
          rw [f3, f2, f1]
          rfl
        · show c + 1 ≤ _
          omega
  · push Not at hend
    obtain ⟨s, hs⟩ := hend
    cases s with
    | some p =>
      refine still r ?_ (.inl ⟨p, hs⟩)
      show H.advance (jobs i) (disk, q) = _
      unfold Host.advance
      rw [hs]
    | none =>
      obtain ⟨A, don, hl, hcount⟩ := h.loop hs
      cases hpend : q.pending with
      | cons ch cs =>
        have hr' : r = (disk.change ch, { q with pending := cs }) := by
          show H.advance (jobs i) (disk, q) = _
          unfold Host.advance
          dsimp only
          rw [hs, hpend]
        obtain ⟨l, b, hch, hwl, hdl⟩ := hl.pending ch (by rw [hpend]; exact List.mem_cons_self)
        subst hch
        rw [hr']
        refine ⟨grown_put H ha hdisk i (hr i) l hwl hdl hl.dir b, fun _ h => h, fun m hm => ?_, fun hp => absurd hs hp, fun o ho => ?_, fun _ => hs, fun _ => ?_⟩
        · have : m = l := by
            by_contra hne
            exact hm (if_neg hne)
          rw [this]
          exact hwl
        · exact (h.fine o ho).grows H fun _ h => h
        · refine ⟨A.put l b, don ++ [.file l b], ⟨?_, grown_put H ha hl.grown i (hr i) l hwl hdl hl.dirA b, hl.dirA, hl.dir, fun m hm => ?_, fun c hc => ?_,
            hl.todo, ?_, ?_⟩, .inl ?_⟩
          · rw [changes_append, ← hl.tree]
            rfl
          · show (if m = l then some b else disk.content m) = (if m = l then some b else A.content m)
            rw [hl.same m hm]
          · exact hl.pending c (by rw [hpend]; exact List.mem_cons_of_mem _ hc)
          · have := hl.all
            rw [hpend] at this
            rw [this]
            unfold restOf
            dsimp only
            rw [hpend]
            simp only [List.append_assoc, List.cons_append, List.nil_append]
            rfl
          · have := hl.stops
            rw [this]
            unfold restOf
            dsimp only
            rw [hpend]
            rfl
          · rw [List.length_append]
            rcases hcount with hcount | hdone
            · show c + 1 ≤ _ + (don.length + 1) + ((jobs i).inputs.length - q.todo.length)
              omega
            · rw [hdone.2.1] at hpend
              cases hpend
      | nil =>
        cases hstop : q.stop with
        | some p =>
          refine still r ?_ (.inr ⟨hs, hpend, .inl (by rw [hstop]; simp)⟩)
          show H.advance (jobs i) (disk, q) = _
          unfold Host.advance
          dsimp only
          rw [hs, hpend, hstop]
        | none =>
          cases htodo : q.todo with
          | nil =>
            refine still r ?_ (.inr ⟨hs, hpend, .inr htodo⟩)
            show H.advance (jobs i) (disk, q) = _
            unfold Host.advance
            dsimp only
            rw [hs, hpend, hstop, htodo]
          | cons x rest =>
            have hr' : r = (disk, ⟨q.prep, rest, (H.input disk (jobs i).suffix (jobs i).output x).1,
                (H.input disk (jobs i).suffix (jobs i).output x).2⟩) := by
              show H.advance (jobs i) (disk, q) = _
              unfold Host.advance
              dsimp only
              rw [hs, hpend, hstop, htodo]
            have hx : x ∈ (jobs i).inputs := hl.todo.subset (by rw [htodo]; exact List.mem_cons_self)
            obtain ⟨lx, hfind, _⟩ := (hr i).inputs x hx
            have e1 := input_round H hdisk.sound hdisk.grows (hdisk.grows _ hc) (jobs i) (hr i) hl.dir x lx hfind
            have e2 := input_round H hl.grown.sound hl.grown.grows (hl.grown.grows _ hc) (jobs i) (hr i) hl.dirA x lx hfind
            have e3 : H.input disk (jobs i).suffix (jobs i).output x = H.input A (jobs i).suffix (jobs i).output x := by
              rw [e1, e2, hl.same lx (.inr ⟨x, hx, hfind⟩)]
              exact roundAt_congr H (jobs i) x hx _ _ _ fun m hm =>
                (writes_isDir H ha hdisk i m hm).trans (writes_isDir H ha hl.grown i m hm).symm
            rw [hr']
            refine ⟨hdisk, fun _ h => h, fun m hm => absurd rfl hm, fun hp => absurd hs hp, h.fine, h.noOut, fun _ => ⟨A, don, ⟨hl.tree, hl.grown, hl.dirA, hl.dir,
              hl.same, fun c hc => ?_, ?_, ?_, ?_⟩, .inl ?_⟩⟩
            · have hc' : c ∈ (roundAt H (jobs i) x (disk.content lx) disk.isDir).1 := by
                rw [← e1]
                exact hc
              obtain ⟨l, b, k1, k2, k3⟩ := roundAt_changes H (jobs i) x hx _ _ c hc'
              exact ⟨l, b, k1, k2, by rw [← writes_isDir H ha hdisk i l k2]; exact k3⟩
            · have := hl.todo
              rw [htodo] at this
              exact (List.suffix_cons x rest).trans this
            · rw [hl.all, hpend, e3]
              unfold restOf
              dsimp only
              rw [hstop, htodo, hpend]
              show don ++ [] ++ (H.inputs (jobs i).suffix (jobs i).output A (x :: rest)).1 = _
              rw [Host.inputs]
              cases H.input A (jobs i).suffix (jobs i).output x with
              | mk cs p => cases p <;> simp
            · rw [hl.stops, e3]
              unfold restOf
              dsimp only
              rw [hstop, htodo, hpend]
              show (H.inputs (jobs i).suffix (jobs i).output A (x :: rest)).2 = _
              rw [Host.inputs]
              cases H.input A (jobs i).suffix (jobs i).output x with
              | mk cs p => cases p <;> simp
            · have hlen := hl.todo.length_le
              rw [htodo, List.length_cons] at hlen
              rcases hcount with hcount | hdone
              · rw [htodo, List.length_cons] at hcount
                show c + 1 ≤ _ + don.length + ((jobs i).inputs.length - rest.length)
                omega
              · rcases hdone.2.2 with hd | hd
                · exact absurd hstop hd
                · rw [hd] at htodo
                  cases htodo

variable [DecidableEq ι]

theorem exec_inv {D : Disk} (hD : D.Sound) (hc : D.isDir H.cwd = true) {jobs : ι → Job} (hr : ∀ i, (jobs i).Ready H D) (ha : JobsApart H D jobs)
    (w : List ι) :
    let s := TreeStage.exec H jobs D w
    GrownOnWays H D jobs s.disk ∧ (∀ l, s.disk.content l ≠ D.content l → ∃ i, (jobs i).Writes H l) ∧
      ∀ i, ProcInv H D jobs s.disk i (s.proc i) (w.count i) := by
  induction w using List.reverseRecOn with
  | nil =>
    refine ⟨⟨hD, fun _ h => h, fun _ h => .inl h⟩, fun l h => absurd rfl h, fun i => ?_⟩
    obtain ⟨p1, p2, p3, _⟩ := prepared_facts H hD hc jobs i (hr i)
    show ProcInv H D jobs D i (jobs i).start 0
    cases ho : (jobs i).output with
    | none =>
      have hs : (jobs i).start = ⟨.ended none, (jobs i).inputs, [], none⟩ := by
        unfold Job.start
        rw [ho]
        rfl
      rw [hs]
      refine ⟨fun h => absurd rfl h, fun o h => (by rw [ho] at h; cases h), fun _ => rfl, fun _ => ⟨H.prepared D (jobs i).output, [],
        ⟨rfl, p1, p3, ?_, fun l _ => (by rw [p2]), fun c hc => (by cases hc), List.suffix_rfl, rfl, rfl⟩, .inl (Nat.zero_le _)⟩⟩
      unfold outDir
      rw [ho]
      exact hc
    | some o =>
      have hs : (jobs i).start = ⟨.start, (jobs i).inputs, [], none⟩ := by
        unfold Job.start
        rw [ho]
        rfl
      rw [hs]
      exact ⟨fun _ => ⟨rfl, rfl, rfl, fun _ _ => rfl, le_rfl⟩, fun o _ => trivial, fun h => by (rw [ho] at h; cases h), fun h => (by cases h)⟩
  | append_singleton w i ih =>
    have e : TreeStage.exec H jobs D (w ++ [i]) = (TreeStage.exec H jobs D w).step H jobs i := by
      unfold TreeStage.exec
      rw [List.foldl_append]
      rfl
    rw [e]
    generalize TreeStage.exec H jobs D w = s at ih
    obtain ⟨g1, g2, g3⟩ := ih
    obtain ⟨o1, o2, o3, o4⟩ := own_step H hD hc hr ha g1 g2 i (s.proc i) (w.count i) (g3 i)
    refine ⟨o1, fun l hl => ?_, fun j => ?_⟩
    · by_cases hx : (H.advance (jobs i) (s.disk, s.proc i)).1.content l = s.disk.content l
      · exact g2 l fun h => hl (hx.trans h)
      · exact ⟨i, o3 l hx⟩
    · show ProcInv H D jobs (H.advance (jobs i) (s.disk, s.proc i)).1 j
        (if j = i then (H.advance (jobs i) (s.disk, s.proc i)).2 else s.proc j) _
      by_cases hji : j = i
      · subst hji
        rw [if_pos rfl, List.count_append, List.count_singleton_self]
        exact o4
      · rw [if_neg hji, List.count_append, List.count_singleton]
        have : (i == j) = false := by simpa using fun e => hji e.symm
        rw [this]
        exact other_step H ha (fun h => hji h.symm) o2 o3 (g3 j)

/-- C99: the tree. Whatever the schedule, and at every moment: the tree is a tree; no folder is gone, and new folders are on the way to the
output folder of a process; a file that has changed is an output of a process. -/
theorem tree_processes_safe (D : Disk) (hD : D.Sound) (hc : D.isDir H.cwd = true) (jobs : ι → Job) (hr : ∀ i, (jobs i).Ready H D)
    (ha : JobsApart H D jobs) (w : List ι) :
    let s := TreeStage.exec H jobs D w
    s.disk.Sound ∧ (∀ l, D.isDir l = true → s.disk.isDir l = true) ∧
      (∀ l, s.disk.isDir l = true → D.isDir l = true ∨ ∃ i, (jobs i).Passes H l) ∧
      ∀ l, s.disk.content l ≠ D.content l → ∃ i, (jobs i).Writes H l := by
  obtain ⟨h1, h2, _⟩ := exec_inv H hD hc hr ha w
  exact ⟨h1.sound, h1.grows, h1.made, h2⟩

/-- C99: a process among others does what it does alone. At every moment its outputs are as they are after a first part of the changes of
its run alone; when it is done it ends the same way, and its outputs are the same. If it gave up in making the output folder, that is the
race of C98. -/
theorem tree_processes_alone (D : Disk) (hD : D.Sound) (hc : D.isDir H.cwd = true) (jobs : ι → Job) (hr : ∀ i, (jobs i).Ready H D)
    (ha : JobsApart H D jobs) (w : List ι) (i : ι) :
    let s := TreeStage.exec H jobs D w
    let alone := H.process D (jobs i).inputs (some (jobs i).suffix) (jobs i).output
    (∃ cs, cs <+: alone.1 ∧ ∀ l, (jobs i).Writes H l ∨ (jobs i).Reads H D l → s.disk.content l = (D.changes cs).content l) ∧
    ((s.proc i).Done → (s.proc i).stop = alone.2 ∧
      ∀ l, (jobs i).Writes H l ∨ (jobs i).Reads H D l → s.disk.content l = (D.changes alone.1).content l) ∧
    ∀ p, (s.proc i).prep = .ended (some p) → p = .exitOne ∧ D.isDir (outDir H (jobs i)) = false ∧
      ∀ l, (jobs i).Writes H l ∨ (jobs i).Reads H D l → s.disk.content l = D.content l := by
  intro s alone
  obtain ⟨_, _, h⟩ := exec_inv H hD hc hr ha w
  have hi : ProcInv H D jobs s.disk i (s.proc i) (w.count i) := h i
  have halone : alone = _ := process_ready H hD hc (jobs i) (hr i)
  have hprep : H.prepared D (jobs i).output = D.changes ((H.madeFor D (jobs i).output).map .folder) := by
    rw [changes_folders]
    rfl
  refine ⟨?_, fun hdone => ?_, fun p hp => ?_⟩
  · by_cases hp : (s.proc i).prep = .ended none
    · obtain ⟨A, don, hl, _⟩ := hi.loop hp
      refine ⟨(H.madeFor D (jobs i).output).map .folder ++ don, ?_, fun l hm => ?_⟩
      · rw [halone]
        dsimp only
        rw [hl.all, List.append_assoc don, List.prefix_append_right_inj]
        exact List.prefix_append _ _
      · rw [hl.same l hm, hl.tree, changes_append, hprep]
    · obtain ⟨_, _, _, h4, _⟩ := hi.fresh hp
      exact ⟨[], List.nil_prefix, fun l hm => h4 l hm⟩
  · obtain ⟨A, don, hl, _⟩ := hi.loop hdone.1
    have hrest : restOf H (jobs i) A (s.proc i) = ([], (s.proc i).stop) := by
      unfold restOf
      cases hs : (s.proc i).stop with
      | some p => rfl
      | none =>
        rcases hdone.2.2 with hd | hd
        · exact absurd hs hd
        · rw [hd]
          rfl
    have hall := hl.all
    have hstops := hl.stops
    rw [hrest] at hall hstops
    rw [hdone.2.1] at hall
    simp only [List.append_nil] at hall
    refine ⟨?_, fun l hm => ?_⟩
    · rw [halone]
      exact hstops.symm
    · rw [halone]
      dsimp only
      rw [hall, hl.same l hm, hl.tree, changes_append, hprep]
  · obtain ⟨_, _, _, h4, _⟩ := hi.fresh (by rw [hp]; simp)
    cases ho : (jobs i).output with
    | none =>
      have := hi.noOut ho
      rw [hp] at this
      cases this
    | some o =>
      have hf := hi.fine o ho
      rw [hp] at hf
      refine ⟨hf.1, ?_, h4⟩
      unfold outDir
      rw [ho]
      exact hf.2.1

/-- C99: a process is done after a bounded number of its own steps, whatever the others do: at most three for each name of its `-o` path
and five, one for each input, and one for each change it makes alone. Otherwise it has lost the race of C98. -/
theorem tree_processes_end (D : Disk) (hD : D.Sound) (hc : D.isDir H.cwd = true) (jobs : ι → Job) (hr : ∀ i, (jobs i).Ready H D)
    (ha : JobsApart H D jobs) (w : List ι) (i : ι)
    (hw : 3 * (parsePath ((jobs i).output.getD [])).parts.length + 5 + (jobs i).inputs.length +
      (H.process D (jobs i).inputs (some (jobs i).suffix) (jobs i).output).1.length ≤ w.count i) :
    let s := TreeStage.exec H jobs D w
    (s.proc i).Done ∨ ((s.proc i).prep = .ended (some .exitOne) ∧ D.isDir (outDir H (jobs i)) = false) := by
  intro s
  obtain ⟨_, _, h⟩ := exec_inv H hD hc hr ha w
  have hi : ProcInv H D jobs s.disk i (s.proc i) (w.count i) := h i
  rw [process_ready H hD hc (jobs i) (hr i)] at hw
  dsimp only at hw
  rw [List.length_append, List.length_map] at hw
  have hn : (jobs i).names = (parsePath ((jobs i).output.getD [])).parts.length := rfl
  by_cases hp : (s.proc i).prep = .ended none
  · obtain ⟨A, don, hl, hcount | hdone⟩ := hi.loop hp
    · have hlen := congrArg List.length hl.all
      rw [List.length_append, List.length_append] at hlen
      have ht := hl.todo.length_le
      refine .inl ⟨hp, List.length_eq_zero_iff.mp ?_, ?_⟩
      · omega
      · by_cases h0 : (s.proc i).todo.length = 0
        · exact .inr (List.length_eq_zero_iff.mp h0)
        · exfalso
          omega
    · exact .inl hdone
  · obtain ⟨_, _, _, _, h5⟩ := hi.fresh hp
    obtain ⟨r, hr'⟩ := left_zero _ _ (show (s.proc i).prep.left (jobs i).names = 0 by omega)
    cases r with
    | none => exact absurd hr' hp
    | some p =>
      obtain ⟨e, hd, _⟩ := (tree_processes_alone H D hD hc jobs hr ha w i).2.2 p hr'
      subst e
      exact .inr ⟨hr', hd⟩

end
end Sia
