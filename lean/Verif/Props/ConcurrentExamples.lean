import Verif.Props.ConcurrentProps
import Verif.Props.CliExamples
import Verif.Props.GenerationExamples

/-! C93: a batch in parallel, and a concrete case. -/
namespace Sia

section
variable {F : Type} [FloatOps F] (W : World F)

/-- One process for each input. -/
def oneEach (suffix : List Char) (folder : Option PathStr) (inputs : List PathStr) (k : Fin inputs.length) : Command :=
  ⟨suffix, folder, [inputs[k]]⟩

/-- C93: a batch that one process completes without an error can be given to as many processes as there are inputs, all at the same time:
they are independent, each ends without an error, and the files are the same. -/
theorem parallel_batch (suffix : List Char) (folder : Option PathStr) (fs : Files W.Loc) (inputs : List PathStr)
    (results : List (W.Loc × List UInt8)) (h : CleanBatch W suffix folder fs inputs results) :
    Independent W (oneEach suffix folder inputs) ∧
    ∀ schedule, (∀ k, (((launch W (oneEach suffix folder inputs) fs).exec schedule).run k).Ended) →
      (∀ k, (((launch W (oneEach suffix folder inputs) fs).exec schedule).run k).stop = none) ∧
      ((launch W (oneEach suffix folder inputs) fs).exec schedule).files =
        W.after fs (processInputs W suffix folder fs inputs).1 := by
  have hlen : inputs.length = results.length := h.marks.length_eq
  have hmark : ∀ k : Fin inputs.length, ∃ content, fs (W.resolve inputs[k]) = some content ∧
      MarksTo W suffix folder inputs[k] content (results[k.1]'(hlen ▸ k.2)).1 (results[k.1]'(hlen ▸ k.2)).2 := fun k =>
    (List.forall₂_iff_get.mp h.marks).2 k.1 k.2 (hlen ▸ k.2)
  have hwrites : ∀ (k : Fin inputs.length) (l : W.Loc), l ∈ (oneEach suffix folder inputs k).writes W ↔ l = (results[k.1]'(hlen ▸ k.2)).1 := by
    intro k l
    obtain ⟨_, _, _, _, stem, ext, _, _, _, _, e3, e4, _⟩ := hmark k
    constructor
    · rintro ⟨i, hi, stem', ext', hn, rfl⟩
      obtain rfl := List.mem_singleton.mp hi
      have hne : some (stem', ext') = some (stem, ext) := ((namedAs_iff _ _ _).mp hn).symm.trans ((namedAs_iff _ _ _).mp e3)
      cases hne
      exact e4.symm
    · rintro rfl
      exact ⟨_, List.mem_singleton.mpr rfl, stem, ext, e3, e4⟩
  have hind : Independent W (oneEach suffix folder inputs) := by
    intro i j hij l hl
    rw [hwrites] at hl
    subst hl
    constructor
    · rw [hwrites]
      intro he
      have := (List.Nodup.getElem_inj_iff h.outputs_distinct (i := i.1) (j := j.1) (hi := by simpa using hlen ▸ i.2)
        (hj := by simpa using hlen ▸ j.2)).mp (by simpa using he)
      exact hij (Fin.ext this)
    · rintro ⟨i', hi', he⟩
      obtain rfl := List.mem_singleton.mp hi'
      exact h.outputs_not_inputs _ (List.getElem_mem _) _ (List.getElem_mem _) he
  refine ⟨hind, fun schedule hend => ?_⟩
  obtain ⟨h1, h2, h3⟩ := concurrent_result W _ hind fs schedule hend
  have hone : ∀ k : Fin inputs.length, CleanBatch W suffix folder fs [inputs[k]] [results[k.1]'(hlen ▸ k.2)] := by
    intro k
    refine ⟨.cons (hmark k) .nil, List.nodup_singleton _, fun r hr i hi => ?_⟩
    obtain rfl := List.mem_singleton.mp hr
    obtain rfl := List.mem_singleton.mp hi
    exact h.outputs_not_inputs _ (List.getElem_mem _) _ (List.getElem_mem _)
  obtain ⟨_, b2, b3⟩ := batch_completes W suffix folder fs inputs results h
  refine ⟨fun k => (h1 k).trans (batch_completes W suffix folder fs _ _ (hone k)).1, funext fun l => ?_⟩
  by_cases hl : ∃ k : Fin inputs.length, l = (results[k.1]'(hlen ▸ k.2)).1
  · obtain ⟨k, rfl⟩ := hl
    rw [h2 k _ ((hwrites k _).mpr rfl), b2 _ (List.getElem_mem _)]
    exact (batch_completes W suffix folder fs _ _ (hone k)).2.1 _ (List.mem_singleton.mpr rfl)
  · rw [h3 l fun k hk => hl ⟨k, (hwrites k l).mp hk⟩]
    refine (b3 l ?_).symm
    intro hr
    obtain ⟨r, hr', rfl⟩ := List.mem_map.mp hr
    obtain ⟨k, hk, rfl⟩ := List.getElem_of_mem hr'
    exact hl ⟨⟨k, hlen ▸ hk⟩, rfl⟩

variable {ι : Type} [DecidableEq ι]

/-- A process that is scheduled without interruption until it ends does what is left of its work. -/
theorem exec_solo (m : Machines W ι) (i : ι) (n : Nat) :
    ∃ es, (m.exec (List.replicate n i)).files = W.after m.files es ∧ (∀ j, j ≠ i → (m.exec (List.replicate n i)).run j = m.run j) ∧
      Run.rest W m.files (m.run i) = (es ++ (Run.rest W (m.exec (List.replicate n i)).files ((m.exec (List.replicate n i)).run i)).1,
        (Run.rest W (m.exec (List.replicate n i)).files ((m.exec (List.replicate n i)).run i)).2) ∧
      Run.steps W (m.exec (List.replicate n i)).files ((m.exec (List.replicate n i)).run i) ≤ Run.steps W m.files (m.run i) - n := by
  induction n generalizing m with
  | zero => exact ⟨[], rfl, fun _ _ => rfl, rfl, le_rfl⟩
  | succ n ih =>
    have e : m.exec (List.replicate (n + 1) i) = (m.step i).exec (List.replicate n i) := rfl
    rw [e]
    obtain ⟨es, e1, e2, e3, e4⟩ := ih (m.step i)
    have hrun : (m.step i).run i = (Run.step W m.files (m.run i)).2 := if_pos rfl
    obtain ⟨new, _, n1, n2, _⟩ := Run.rest_step W m.files (m.run i)
    refine ⟨new ++ es, ?_, fun j hj => ?_, ?_, ?_⟩
    · rw [e1, after_append, ← n1]
      rfl
    · rw [e2 j hj]
      exact if_neg hj
    · rw [n2, ← hrun]
      have e3' : Run.rest W (Run.step W m.files (m.run i)).1 ((m.step i).run i) = _ := e3
      rw [e3', List.append_assoc]
    · have := Run.steps_step W m.files (m.run i)
      rw [← hrun] at this
      have e5 : Run.steps W (Run.step W m.files (m.run i)).1 ((m.step i).run i) = Run.steps W (m.step i).files ((m.step i).run i) := rfl
      omega

/-- A process that has ended has nothing left to do. -/
theorem Run.rest_ended (fs : Files W.Loc) (r : Run W) (h : r.Ended) : Run.rest W fs r = ([], r.stop) := by
  obtain ⟨g1, g2⟩ := h
  unfold Run.rest
  rw [g1]
  cases hs : r.stop with
  | some p => rfl
  | none =>
    rcases g2 with g2 | g2
    · exact absurd hs g2
    · dsimp only
      rw [g2]
      rfl

/-- C93, the need for independence: if two processes write the same file, what it holds in the end is up to the schedule. -/
theorem shared_output_races (suffix suffix' : List Char) (folder folder' : Option PathStr) (fs : Files W.Loc) (i i' : PathStr)
    (l : W.Loc) (b b' : List UInt8) (hb : b ≠ b') (h : CleanBatch W suffix folder fs [i] [(l, b)])
    (h' : CleanBatch W suffix' folder' fs [i'] [(l, b')]) :
    let m := launch W (fun k : Bool => if k then ⟨suffix', folder', [i']⟩ else ⟨suffix, folder, [i]⟩) fs
    ∃ schedule schedule', (∀ k, ((m.exec schedule).run k).Ended) ∧ (∀ k, ((m.exec schedule').run k).Ended) ∧
      (m.exec schedule).files l ≠ (m.exec schedule').files l ∧ (m.exec schedule).files l = some b' ∧ (m.exec schedule').files l = some b := by
  intro m
  have hi : l ≠ W.resolve i := h.outputs_not_inputs _ (List.mem_singleton.mpr rfl) _ (List.mem_singleton.mpr rfl)
  have hi' : l ≠ W.resolve i' := h'.outputs_not_inputs _ (List.mem_singleton.mpr rfl) _ (List.mem_singleton.mpr rfl)
  have order : ∀ (k : Bool) (s s' : List Char) (f f' : Option PathStr) (i i' : PathStr) (b b' : List UInt8),
      m.run k = .start W s f [i] → m.run (!k) = .start W s' f' [i'] → CleanBatch W s f fs [i] [(l, b)] → CleanBatch W s' f' fs [i'] [(l, b')] →
      l ≠ W.resolve i' → ∃ schedule, (∀ k, ((m.exec schedule).run k).Ended) ∧ (m.exec schedule).files l = some b' := by
    intro k s s' f f' i i' b b' hk hk' hc hc' hne
    obtain ⟨es, e1, e2, e3, e4⟩ := exec_solo W m k (Run.steps W m.files (m.run k))
    set m1 := m.exec (List.replicate (Run.steps W m.files (m.run k)) k) with hm1
    have end1 : (m1.run k).Ended := Run.ended_of_steps W m1.files _ (by omega)
    obtain ⟨es', e1', e2', e3', e4'⟩ := exec_solo W m1 (!k) (Run.steps W m1.files (m1.run (!k)))
    set m2 := m1.exec (List.replicate (Run.steps W m1.files (m1.run (!k))) (!k)) with hm2
    have end2 : (m2.run (!k)).Ended := Run.ended_of_steps W m2.files _ (by omega)
    have hend : ∀ j, (m2.run j).Ended := by
      intro j
      rcases Bool.eq_or_eq_not j k with rfl | rfl
      · rw [e2' j (by cases j <;> decide)]
        exact end1
      · exact end2
    refine ⟨List.replicate (Run.steps W m.files (m.run k)) k ++ List.replicate (Run.steps W m1.files (m1.run (!k))) (!k), ?_⟩
    have hexec : m.exec (List.replicate (Run.steps W m.files (m.run k)) k ++ List.replicate (Run.steps W m1.files (m1.run (!k))) (!k)) = m2 := by
      unfold Machines.exec
      rw [List.foldl_append]
      rfl
    rw [hexec]
    refine ⟨hend, ?_⟩
    -- the second process finds its input unchanged
    rw [Run.rest_ended W _ _ end1, List.append_nil, hk] at e3
    rw [Run.rest_ended W _ _ end2, List.append_nil, e2 (!k) (by cases k <;> decide), hk'] at e3'
    have hes : (processInputs W s f fs [i]).1 = es := congrArg Prod.fst e3
    have hes' : (processInputs W s' f' m1.files [i']).1 = es' := congrArg Prod.fst e3'
    have hm1f : m1.files = W.after fs es := e1
    have hc1 : CleanBatch W s' f' m1.files [i'] [(l, b')] := by
      refine ⟨?_, hc'.outputs_distinct, hc'.outputs_not_inputs⟩
      have := hc'.marks
      rw [List.forall₂_cons] at this
      obtain ⟨⟨content, c1, c2⟩, _⟩ := this
      refine .cons ⟨content, ?_, c2⟩ .nil
      rw [hm1f, ← hes, (batch_completes W s f fs _ _ hc).2.2 _ (by simpa using Ne.symm hne)]
      exact c1
    rw [e1', ← hes']
    exact (batch_completes W s' f' _ _ _ hc1).2.1 (l, b') (List.mem_singleton.mpr rfl)
  obtain ⟨sc, a1, a2⟩ := order false suffix suffix' folder folder' i i' b b' rfl rfl h h' hi'
  obtain ⟨sc', a1', a2'⟩ := order true suffix' suffix folder' folder i' i b' b rfl rfl h' h hi
  exact ⟨sc, sc', a1, a1', by rw [a2, a2']; exact fun e => hb (Option.some.inj e).symm, a2, a2'⟩

end

/-- Two processes, one for each of two inputs, whatever the schedule: a concrete case of the batch theorem, with a schedule that ends
both. -/
example : ∃ v, ∀ schedule : List (Fin 2), 100 ≤ schedule.count 0 → 100 ≤ schedule.count 1 →
    let m := (launch toyWorld (oneEach "wm".toList (some "out".toList) ["in/a.png".toList, "in/b.png".toList]) (fun _ => some [7])).exec schedule
    m.files "out/a-wm.png".toList = some [1, v] ∧ m.files "out/b-wm.png".toList = some [1, v] ∧ m.files "in/a.png".toList = some [7] := by
  obtain ⟨v, hv⟩ := toyWorld_clean
  obtain ⟨h1, h2⟩ := parallel_batch toyWorld _ _ _ _ _ hv
  refine ⟨v, fun schedule c0 c1 => ?_⟩
  have hsteps : ∀ (k : Fin 2) (i : PathStr), ((processInputs toyWorld "wm".toList (some "out".toList) (fun _ => some [7]) [i]).1).length ≤ 4 := by
    intro k i
    have e : (processInputs toyWorld "wm".toList (some "out".toList) (fun _ => some [7]) [i]).1.length =
        (processInput toyWorld (fun _ => some [7]) "wm".toList (some "out".toList) i).1.length := by
      unfold processInputs
      rcases processInput toyWorld (fun _ => some [7]) "wm".toList (some "out".toList) i with ⟨es, p⟩
      cases p with
      | some p => rfl
      | none => simp [processInputs]
    rw [e]
    unfold processInput
    simp only [toyWorld]
    cases watermark Deps.toyReal testImage (FloatOps.ofInt 100) (FloatOps.ofInt 1) 11 with
    | error p => simp
    | ok marked =>
      dsimp only
      cases (fileName i).bind stemExt with
      | none => simp
      | some se => simp
  have hend : ∀ k, (((launch toyWorld (oneEach "wm".toList (some "out".toList) ["in/a.png".toList, "in/b.png".toList]) (fun _ => some [7])).exec
      schedule).run k).Ended := by
    intro k
    refine concurrent_ends toyWorld _ h1 _ schedule k ?_
    have := hsteps k (["in/a.png".toList, "in/b.png".toList][k])
    have e : 100 ≤ schedule.count k := by
      match k with
      | 0 => exact c0
      | 1 => exact c1
    refine le_trans (Nat.add_le_add this (le_refl _)) (le_trans ?_ e)
    show 4 + 1 ≤ 100
    norm_num
  obtain ⟨_, hf⟩ := h2 schedule hend
  obtain ⟨_, b2, b3⟩ := batch_completes toyWorld _ _ _ _ _ hv
  refine ⟨?_, ?_, ?_⟩
  · rw [hf]; exact b2 ("out/a-wm.png".toList, [1, v]) List.mem_cons_self
  · rw [hf]; exact b2 ("out/b-wm.png".toList, [1, v]) (List.mem_cons_of_mem _ List.mem_cons_self)
  · rw [hf]
    refine b3 "in/a.png".toList ?_
    show "in/a.png".toList ∉ ["out/a-wm.png".toList, "out/b-wm.png".toList]
    decide

/-- One input in the world of `plainWorld`. -/
theorem plain_clean (n : Nat) (image : DynamicImage) (hw : image.width = n) (hh : image.height = n) (h8 : 8 ∣ n) (h216 : 216 ≤ n)
    (h256 : n ≠ 256) (fs : Files PathStr) (input stem ext suffix : List Char) (folder : Option PathStr) (hname : NamedAs input stem ext)
    (hne : OutName stem ext suffix folder ≠ input) (hfs : fs input = some (plainBytes image)) :
    ∃ marked : DynamicImage, marked.width = n ∧
      CleanBatch (plainWorld idealLibm) suffix folder fs [input] [(OutName stem ext suffix folder, plainBytes marked)] := by
  obtain ⟨got, g1, ⟨gw, gh, _⟩, _⟩ := plainWorld_reads idealLibm input image
  obtain ⟨marked, hm⟩ := program_marks idealLibm idealLibm_moduli got n (.fin 100) (.fin 1) (gw.trans hw) (gh.trans hh) h8 h216 h256 (by decide)
  obtain ⟨k1, _⟩ := watermark_keeps_shape_and_alpha _ _ _ _ _ _ hm
  refine ⟨marked, k1.trans (gw.trans hw), .cons ⟨plainBytes image, hfs, got, marked, stem, ext, 0, [], g1, ?_, hname, rfl, rfl, rfl, rfl⟩ .nil,
    List.nodup_singleton _, fun r hr i hi => ?_⟩
  · rw [ofInt_100, ofInt_1]
    exact hm
  · obtain rfl := List.mem_singleton.mp hr
    obtain rfl := List.mem_singleton.mp hi
    exact hne

/-- Two processes mark two pictures called `a.png` into the same folder: which one is in `out/a-wm.png` in the end is up to the schedule. -/
example : ∃ (fs : Files PathStr) (schedule schedule' : List Bool),
    let m := launch (plainWorld idealLibm) (fun k : Bool => if k then ⟨"wm".toList, some "out".toList, ["y/a.png".toList]⟩ else
      ⟨"wm".toList, some "out".toList, ["x/a.png".toList]⟩) fs
    (∀ k, ((m.exec schedule).run k).Ended) ∧ (∀ k, ((m.exec schedule').run k).Ended) ∧
      (m.exec schedule).files "out/a-wm.png".toList ≠ (m.exec schedule').files "out/a-wm.png".toList := by
  let small : DynamicImage := ⟨.Rgb8, 216, 216, fun _ _ => ⟨60, 60, 60, 255⟩⟩
  let fs : Files PathStr := fun l => if l = "x/a.png".toList then some (plainBytes stripes) else some (plainBytes small)
  have hout : OutName "a".toList "png".toList "wm".toList (some "out".toList) = "out/a-wm.png".toList := by decide
  obtain ⟨p, p1, p2⟩ := plain_clean 512 stripes rfl rfl ⟨64, rfl⟩ (by norm_num) (by norm_num) fs "x/a.png".toList "a".toList "png".toList
    "wm".toList (some "out".toList) ⟨by decide, by decide, by decide⟩ (by decide) (if_pos rfl)
  obtain ⟨q, q1, q2⟩ := plain_clean 216 small rfl rfl ⟨27, rfl⟩ (by norm_num) (by norm_num) fs "y/a.png".toList "a".toList "png".toList
    "wm".toList (some "out".toList) ⟨by decide, by decide, by decide⟩ (by decide) (if_neg (by decide))
  rw [hout] at p2 q2
  have hne : plainBytes p ≠ plainBytes q := by
    intro h
    have := (unary_inj _ _ _ _ h).1
    omega
  obtain ⟨s, s', e1, e2, e3, _⟩ := shared_output_races (plainWorld idealLibm) _ _ _ _ fs _ _ _ _ _ hne p2 q2
  exact ⟨fs, s, s', e1, e2, e3⟩

end Sia
