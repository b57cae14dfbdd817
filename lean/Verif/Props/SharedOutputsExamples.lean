import Verif.Props.SharedOutputsApart
import Verif.Props.ConcurrentExamples

/-! C100: the same command started several times, what goes wrong otherwise, and a concrete case. -/
namespace Sia

section
variable {F : Type} [FloatOps F] (W : World F)

omit [FloatOps F] in
/-- A location is written by a command whose inputs can all be marked exactly if it is one of the results. -/
theorem writes_results [FloatOps F] (suffix : List Char) (folder : Option PathStr) (fs : Files W.Loc) (inputs : List PathStr)
    (results : List (W.Loc × List UInt8)) (h : CleanBatch W suffix folder fs inputs results) (l : W.Loc) :
    l ∈ (Command.mk suffix folder inputs).writes W ↔ ∃ r ∈ results, r.1 = l := by
  have hlen : inputs.length = results.length := h.marks.length_eq
  constructor
  · rintro ⟨x, hx, stem, ext, hn, rfl⟩
    obtain ⟨k, hk, rfl⟩ := List.getElem_of_mem hx
    obtain ⟨content, -, _, _, stem', ext', _, _, _, _, e3, e4, _⟩ := (List.forall₂_iff_get.mp h.marks).2 k hk (hlen ▸ hk)
    have hne : some (stem, ext) = some (stem', ext') := ((namedAs_iff _ _ _).mp hn).symm.trans ((namedAs_iff _ _ _).mp e3)
    cases hne
    exact ⟨_, List.getElem_mem (hlen ▸ hk), e4⟩
  · rintro ⟨r, hr, rfl⟩
    obtain ⟨k, hk, rfl⟩ := List.getElem_of_mem hr
    obtain ⟨content, -, _, _, stem', ext', _, _, _, _, e3, e4, _⟩ := (List.forall₂_iff_get.mp h.marks).2 k (hlen ▸ hk) hk
    exact ⟨_, List.getElem_mem (hlen ▸ hk), stem', ext', e3, e4⟩

variable {ι : Type} [DecidableEq ι]

/-- C100: a command that completes without an error when it is alone can be started any number of times at once: when every process that
began has ended, and one has, none has failed and the files are those the command leaves when it is alone. -/
theorem shared_same_command (hA : W.Appends) (suffix : List Char) (folder : Option PathStr) (fs : Files W.Loc) (inputs : List PathStr)
    (results : List (W.Loc × List UInt8)) (h : CleanBatch W suffix folder fs inputs results) (schedule : List ι) :
    let m := (startWriters W (fun _ : ι => ⟨suffix, folder, inputs⟩) fs).exec schedule
    (∃ i, (m.run i).Ended) → (∀ i ∈ schedule, (m.run i).Ended) →
      (∀ i, (m.run i).stop = none) ∧ m.files = W.after fs (processInputs W suffix folder fs inputs).1 := by
  classical
  intro m hex hall
  have hlen : inputs.length = results.length := h.marks.length_eq
  have huniq : ∀ r ∈ results, ∀ r' ∈ results, r.1 = r'.1 → r = r' := fun r hr r' hr' he =>
    List.inj_on_of_nodup_map h.outputs_distinct hr hr' he
  let E : W.Loc → List UInt8 := fun l => if hl : ∃ r ∈ results, r.1 = l then hl.choose.2 else []
  have hE : ∀ r ∈ results, E r.1 = r.2 := by
    intro r hr
    have hl : ∃ r' ∈ results, r'.1 = r.1 := ⟨r, hr, rfl⟩
    show (if hl : ∃ r' ∈ results, r'.1 = r.1 then hl.choose.2 else []) = _
    rw [dif_pos hl, huniq _ hl.choose_spec.1 _ hr hl.choose_spec.2]
  have hN : NoOutputRead W (fun _ : ι => (⟨suffix, folder, inputs⟩ : Command)) := by
    rintro i j l hl ⟨x, hx, he⟩
    obtain ⟨r, hr, rfl⟩ := (writes_results W suffix folder fs inputs results h l).mp hl
    exact h.outputs_not_inputs r hr x hx he
  have hS : SameBytes W (fun _ : ι => (⟨suffix, folder, inputs⟩ : Command)) fs E := by
    rintro i x hx
    obtain ⟨k, hk, rfl⟩ := List.getElem_of_mem hx
    obtain ⟨content, e1, e2⟩ := (List.forall₂_iff_get.mp h.marks).2 k hk (hlen ▸ hk)
    refine ⟨content, (results.get ⟨k, hlen ▸ hk⟩).1, e1, ?_⟩
    rw [hE _ (List.get_mem _ _)]
    exact e2
  obtain ⟨s1, s2, -, s4⟩ := shared_outputs W (fun _ : ι => (⟨suffix, folder, inputs⟩ : Command)) fs E hA hN hS schedule
  obtain ⟨-, b2, b3⟩ := batch_completes W suffix folder fs inputs results h
  refine ⟨s1, funext fun l => ?_⟩
  by_cases hl : ∃ r ∈ results, r.1 = l
  · obtain ⟨r, hr, rfl⟩ := hl
    obtain ⟨i, hi⟩ := hex
    rw [b2 r hr, s4 r.1 ⟨i, (writes_results W suffix folder fs inputs results h _).mpr ⟨r, hr, rfl⟩, hi⟩ fun i hi _ => hall i hi, hE r hr]
  · rw [s2 l fun i hi => hl ((writes_results W suffix folder fs inputs results h l).mp hi)]
    refine (b3 l fun hm => ?_).symm
    obtain ⟨r, hr, he⟩ := List.mem_map.mp hm
    exact hl ⟨r, hr, he⟩

/-- The calls for an input whose output gets these contents. -/
theorem processInput_by (fs : Files W.Loc) (suffix : List Char) (folder : Option PathStr) (input : PathStr) (content : List UInt8)
    (loc : W.Loc) (contents : List (List UInt8)) (hc : fs (W.resolve input) = some content)
    (h : MarksBy W suffix folder input content loc contents) :
    callsOf (processInput W fs suffix folder input).1 = .create loc :: writeCalls loc [] contents ∧
      (processInput W fs suffix folder input).2 = none := by
  obtain ⟨image, marked, stem, ext, format, h1, h2, h3, h4, h5, h6, h7⟩ := h
  rw [namedAs_iff] at h3
  rw [← outputPath_eq] at h4 h6
  subst h4
  have e : processInput W fs suffix folder input = ((W.resolve (outputPath stem ext suffix folder), []) ::
      contents.map fun c => (W.resolve (outputPath stem ext suffix folder), c), none) := by
    unfold processInput
    simp only [hc, h1, h2, h3, h5, h6, h7, if_true]
  rw [e]
  exact ⟨callsOf_shape W _ _, rfl⟩

/-- Two processes. -/
def pairOf {W : World F} (fs : Files W.Loc) (r r' : Writer W) : Writers W Bool := ⟨fs, fun k => if k then r' else r⟩

variable {W}

theorem pairOf_false (fs : Files W.Loc) (r r' : Writer W) :
    (pairOf fs r r').step false = pairOf (Writer.step W fs r).1 (Writer.step W fs r).2 r' := by
  unfold pairOf Writers.step
  dsimp only
  congr 1
  funext k
  cases k <;> rfl

theorem pairOf_true (fs : Files W.Loc) (r r' : Writer W) :
    (pairOf fs r r').step true = pairOf (Writer.step W fs r').1 r (Writer.step W fs r').2 := by
  unfold pairOf Writers.step
  dsimp only
  congr 1
  funext k
  cases k <;> rfl

/-- The first step of a process reads its input. -/
theorem writer_step_read (fs : Files W.Loc) (suffix : List Char) (folder : Option PathStr) (input : PathStr) (content : List UInt8)
    (loc : W.Loc) (contents : List (List UInt8)) (hc : fs (W.resolve input) = some content)
    (h : MarksBy W suffix folder input content loc contents) :
    Writer.step W fs (.start W suffix folder [input]) = (fs, ⟨suffix, folder, [], .create loc :: writeCalls loc [] contents, none⟩) := by
  obtain ⟨e1, e2⟩ := processInput_by W fs suffix folder input content loc contents hc h
  unfold Writer.step Writer.start
  dsimp only
  rw [e1, e2]

theorem patch_nil_left (b : List UInt8) : patch [] 0 b = b := by
  unfold patch
  split_ifs with h
  · exact h.symm
  · simp

theorem patch_second (p' q' q : List UInt8) (n : Nat) (hp : n = p'.length) (hq : q.length = q'.length) :
    patch (p' ++ q') n q = p' ++ q := by
  subst hp
  unfold patch
  split_ifs with h
  · subst h
    rw [List.length_eq_zero_iff.mp hq.symm]
  · rw [List.take_left, List.length_append, Nat.sub_eq_zero_of_le (by omega), List.replicate_zero, List.append_nil,
      List.drop_eq_nil_of_le (by rw [List.length_append]; omega), List.append_nil]

theorem patch_end (p q : List UInt8) : patch p p.length q = p ++ q := by
  have := patch_grow p (p ++ q) (List.prefix_append _ _)
  rw [List.drop_left] at this
  exact this

variable (W)

/-- What two processes, each with one input and an output written in two pieces, leave after the schedule read, read, create, write, create,
write, write, write. -/
theorem shared_mixed_facts (fs : Files W.Loc) (suffix suffix' : List Char) (folder folder' : Option PathStr) (input input' : PathStr)
    (content content' : List UInt8) (l : W.Loc) (p q p' q' : List UInt8) (hc : fs (W.resolve input) = some content)
    (hc' : fs (W.resolve input') = some content') (h : MarksBy W suffix folder input content l [p, p ++ q])
    (h' : MarksBy W suffix' folder' input' content' l [p', p' ++ q']) (hp : p.length = p'.length) (hq : q.length = q'.length) :
    ∃ fs', fs' l = some (p' ++ q) ∧ (startWriters W (fun k : Bool => if k then ⟨suffix', folder', [input']⟩ else ⟨suffix, folder, [input]⟩) fs).exec
        [false, true, false, false, true, true, true, false] =
      pairOf fs' ⟨suffix, folder, [], [], none⟩ ⟨suffix', folder', [], [], none⟩ := by
  have hstart : startWriters W (fun k : Bool => if k then ⟨suffix', folder', [input']⟩ else ⟨suffix, folder, [input]⟩) fs =
      pairOf fs (.start W suffix folder [input]) (.start W suffix' folder' [input']) := by
    unfold startWriters pairOf
    congr 1
    funext k
    cases k <;> rfl
  rw [hstart]
  have hs := writer_step_read fs suffix folder input content l [p, p ++ q] hc h
  have hs' := writer_step_read fs suffix' folder' input' content' l [p', p' ++ q'] hc' h'
  unfold Writers.exec
  simp only [List.foldl_cons, List.foldl_nil]
  rw [pairOf_false, hs]
  dsimp only
  rw [pairOf_true, hs']
  dsimp only [writeCalls]
  simp only [pairOf_false, pairOf_true, Writer.step]
  refine ⟨_, ?_, rfl⟩
  simp only [World.call, step_at, Option.getD_some, List.length_nil, List.drop_zero, patch_nil_left, List.drop_left]
  rw [patch_end, patch_second p' q' q p.length hp hq]

/-- C100, the need for the same bytes: two processes whose outputs are one file, written in two pieces of the same lengths. There is a schedule
after which both have ended without an error and the file is the beginning of one of the outputs with the end of the other: if neither
pieces agree, it is the output of neither. -/
theorem shared_mixed (fs : Files W.Loc) (suffix suffix' : List Char) (folder folder' : Option PathStr) (input input' : PathStr)
    (content content' : List UInt8) (l : W.Loc) (p q p' q' : List UInt8) (hc : fs (W.resolve input) = some content)
    (hc' : fs (W.resolve input') = some content') (h : MarksBy W suffix folder input content l [p, p ++ q])
    (h' : MarksBy W suffix' folder' input' content' l [p', p' ++ q']) (hp : p.length = p'.length) (hq : q.length = q'.length) :
    ∃ schedule, let m := (startWriters W (fun k : Bool => if k then ⟨suffix', folder', [input']⟩ else ⟨suffix, folder, [input]⟩) fs).exec schedule
      (∀ k, (m.run k).Ended ∧ (m.run k).stop = none) ∧ m.files l = some (p' ++ q) ∧
      (p ≠ p' → q ≠ q' → p' ++ q ≠ p ++ q ∧ p' ++ q ≠ p' ++ q') := by
  obtain ⟨fs', h1, h2⟩ := shared_mixed_facts W fs suffix suffix' folder folder' input input' content content' l p q p' q' hc hc' h h' hp hq
  refine ⟨[false, true, false, false, true, true, true, false], ?_⟩
  rw [h2]
  refine ⟨fun k => by cases k <;> exact ⟨⟨rfl, .inr rfl⟩, rfl⟩, h1, fun n1 n2 => ⟨fun e => n1 ?_, fun e => n2 (List.append_cancel_left e)⟩⟩
  exact (List.append_cancel_right e).symm

/-- C100, the need to wait for a process that began: two processes that write the same bytes to the same file in two pieces. There is a schedule
in which one of them is killed, the other one ends without an error, and the file has zeros for the first piece. -/
theorem shared_killed (fs : Files W.Loc) (suffix suffix' : List Char) (folder folder' : Option PathStr) (input input' : PathStr)
    (content content' : List UInt8) (l : W.Loc) (p q : List UInt8) (hne : q ≠ []) (hc : fs (W.resolve input) = some content)
    (hc' : fs (W.resolve input') = some content') (h : MarksBy W suffix folder input content l [p, p ++ q])
    (h' : MarksBy W suffix' folder' input' content' l [p, p ++ q]) :
    ∃ schedule, let m := (startWriters W (fun k : Bool => if k then ⟨suffix', folder', [input']⟩ else ⟨suffix, folder, [input]⟩) fs).exec schedule
      ((m.run false).Ended ∧ (m.run false).stop = none) ∧ m.files l = some (List.replicate p.length 0 ++ q) := by
  have hstart : startWriters W (fun k : Bool => if k then ⟨suffix', folder', [input']⟩ else ⟨suffix, folder, [input]⟩) fs =
      pairOf fs (.start W suffix folder [input]) (.start W suffix' folder' [input']) := by
    unfold startWriters pairOf
    congr 1
    funext k
    cases k <;> rfl
  refine ⟨[false, true, false, false, true, false], ?_⟩
  rw [hstart]
  have hs := writer_step_read fs suffix folder input content l [p, p ++ q] hc h
  have hs' := writer_step_read fs suffix' folder' input' content' l [p, p ++ q] hc' h'
  have hexec : ∃ fs' calls, fs' l = some (List.replicate p.length 0 ++ q) ∧
      (pairOf fs (.start W suffix folder [input]) (.start W suffix' folder' [input'])).exec [false, true, false, false, true, false] =
        pairOf fs' ⟨suffix, folder, [], [], none⟩ ⟨suffix', folder', [], calls, none⟩ := by
    unfold Writers.exec
    simp only [List.foldl_cons, List.foldl_nil]
    rw [pairOf_false, hs]
    dsimp only
    rw [pairOf_true, hs']
    dsimp only [writeCalls]
    simp only [pairOf_false, pairOf_true, Writer.step]
    refine ⟨_, _, ?_, rfl⟩
    simp only [World.call, step_at, Option.getD_some, List.drop_left]
    unfold patch
    rw [if_neg hne]
    simp
  obtain ⟨fs', calls, h1, h2⟩ := hexec
  rw [h2]
  exact ⟨⟨⟨rfl, .inr rfl⟩, rfl⟩, h1⟩

end

theorem toyWorld_appends : toyWorld.Appends := fun _ _ => ⟨List.nil_prefix, ⟨[_], rfl⟩, trivial⟩

/-- The case of the examples: an input whose output is written in two pieces. -/
theorem toyWorld_by : ∃ v, MarksBy toyWorld "wm".toList (some "out".toList) "in/a.png".toList [7] "out/a-wm.png".toList [[1], [1] ++ [v]] := by
  obtain ⟨out, hout⟩ := testImage_marks
  exact ⟨(out.pixel 0 0).r, testImage, out, "a".toList, "png".toList, 0, rfl, hout, ⟨by decide, by decide, by decide⟩,
    by show ("out/a-wm.png".toList : List Char) = OutName "a".toList "png".toList "wm".toList (some "out".toList); decide, rfl, rfl, rfl⟩

/-- The hypotheses of `shared_outputs` and `shared_same_command` are met: the same command with two inputs, any number of times. -/
example (ι : Type) [DecidableEq ι] : ∃ results, toyWorld.Appends ∧ CleanBatch toyWorld "wm".toList (some "out".toList) (fun _ => some [7])
    ["in/a.png".toList, "in/b.png".toList] results ∧ ∀ schedule : List ι,
    let m := (startWriters toyWorld (fun _ : ι => ⟨"wm".toList, some "out".toList, ["in/a.png".toList, "in/b.png".toList]⟩) (fun _ => some [7])).exec
      schedule
    (∃ i, (m.run i).Ended) → (∀ i ∈ schedule, (m.run i).Ended) → ∃ v, m.files "out/a-wm.png".toList = some [1, v] ∧
      m.files "out/b-wm.png".toList = some [1, v] := by
  obtain ⟨v, hv⟩ := toyWorld_clean
  refine ⟨_, toyWorld_appends, hv, fun schedule => ?_⟩
  intro m hex hall
  refine ⟨v, ?_⟩
  obtain ⟨-, h⟩ := shared_same_command toyWorld toyWorld_appends _ _ _ _ _ hv schedule hex hall
  obtain ⟨-, b, -⟩ := batch_completes toyWorld _ _ _ _ _ hv
  rw [h]
  exact ⟨b ("out/a-wm.png".toList, [1, v]) (by simp), b ("out/b-wm.png".toList, [1, v]) (by simp)⟩

/-- The same command twice, interleaved: both end, and the output is whole; and with one of them killed, it is not. -/
example : ∃ v, (∃ schedule, let m := (startWriters toyWorld (fun k : Bool => if k then ⟨"wm".toList, some "out".toList, ["in/a.png".toList]⟩ else
      ⟨"wm".toList, some "out".toList, ["in/a.png".toList]⟩) (fun _ => some [7])).exec schedule
      (∀ k, (m.run k).Ended ∧ (m.run k).stop = none) ∧ m.files "out/a-wm.png".toList = some ([1] ++ [v])) ∧
    ∃ schedule, let m := (startWriters toyWorld (fun k : Bool => if k then ⟨"wm".toList, some "out".toList, ["in/a.png".toList]⟩ else
      ⟨"wm".toList, some "out".toList, ["in/a.png".toList]⟩) (fun _ => some [7])).exec schedule
      ((m.run false).Ended ∧ (m.run false).stop = none) ∧ m.files "out/a-wm.png".toList = some ([0] ++ [v]) := by
  obtain ⟨v, hv⟩ := toyWorld_by
  refine ⟨v, ?_, ?_⟩
  · obtain ⟨schedule, h1, h2, -⟩ := shared_mixed toyWorld (fun _ => some [7]) _ _ _ _ _ _ [7] [7] _ [1] [v] [1] [v] rfl rfl hv hv rfl rfl
    exact ⟨schedule, h1, h2⟩
  · obtain ⟨schedule, h1, h2⟩ := shared_killed toyWorld (fun _ => some [7]) _ _ _ _ _ _ [7] [7] _ [1] [v] (by simp) rfl rfl hv hv
    exact ⟨schedule, h1, h2⟩

/-- The hypotheses of `shared_refines` are met: one process for each of two inputs. -/
example (schedule : List (Fin 2)) :
    ((startWriters toyWorld (oneEach "wm".toList (some "out".toList) ["in/a.png".toList, "in/b.png".toList]) (fun _ => some [7])).exec schedule).files
      = ((launch toyWorld (oneEach "wm".toList (some "out".toList) ["in/a.png".toList, "in/b.png".toList]) (fun _ => some [7])).exec schedule).files := by
  obtain ⟨v, hv⟩ := toyWorld_clean
  obtain ⟨h1, -⟩ := parallel_batch toyWorld _ _ _ _ _ hv
  exact (shared_refines toyWorld _ (fun _ => some [7]) toyWorld_appends (fun i j hij l hl => (h1 i j hij l hl).1) schedule).1

end Sia
