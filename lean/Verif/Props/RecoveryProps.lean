import Verif.Props.ConcurrentExamples

/-! C94: running the tool again after a crash. -/
namespace Sia

section
variable {F : Type} [FloatOps F] (W : World F)

/-- What a run does depends only on the files it reads. -/
theorem processInputs_congr (suffix : List Char) (folder : Option PathStr) (inputs : List PathStr) (fs fs' : Files W.Loc)
    (h : ∀ i ∈ inputs, fs (W.resolve i) = fs' (W.resolve i)) :
    processInputs W suffix folder fs inputs = processInputs W suffix folder fs' inputs := by
  induction inputs generalizing fs fs' with
  | nil => rfl
  | cons i inputs ih =>
    have e : processInput W fs suffix folder i = processInput W fs' suffix folder i := by
      unfold processInput
      rw [h i List.mem_cons_self]
    unfold processInputs
    rw [e]
    rcases processInput W fs' suffix folder i with ⟨es, p⟩
    cases p with
    | some p => rfl
    | none =>
      dsimp only
      rw [ih (W.after fs es) (W.after fs' es) fun j hj => after_agree W fs fs' es _ (h j (List.mem_cons_of_mem _ hj))]

/-- Changes made again from their beginning leave nothing of a first part of them. -/
theorem after_take_again (fs : Files W.Loc) (es : List (Event W)) (n : Nat) : W.after (W.after fs (es.take n)) es = W.after fs es := by
  haveI := W.decEq
  funext l
  have key : ∀ (es : List (Event W)) (fs fs' : Files W.Loc), (fs l = fs' l ∨ ∃ e ∈ es, e.1 = l) → W.after fs es l = W.after fs' es l := by
    intro es
    induction es with
    | nil =>
      intro fs fs' h
      rcases h with h | ⟨e, he, _⟩
      · exact h
      · cases he
    | cons e es ih =>
      intro fs fs' h
      refine ih _ _ ?_
      unfold World.step
      by_cases hl : l = e.1
      · left
        simp [hl]
      · rcases h with h | ⟨e', he', hel⟩
        · left
          simp [hl, h]
        · rcases List.mem_cons.mp he' with rfl | he'
          · exact absurd hel.symm hl
          · exact Or.inr ⟨e', he', hel⟩
  refine key es _ _ ?_
  by_cases hl : ∃ e ∈ es, e.1 = l
  · exact Or.inr hl
  · left
    exact after_untouched W fs _ l fun e he hel => hl ⟨e, List.mem_of_mem_take he, hel⟩

/-- C94: if no output of the command is one of its inputs, interrupted attempts, however many and wherever they were interrupted, leave no
trace after the next complete run: it makes the same changes, ends the same way and leaves the same files as a run that was never
interrupted. -/
theorem recovery (c : Command) (hc : ∀ l ∈ c.writes W, l ∉ c.reads W) (fs : Files W.Loc) (cuts : List Nat) :
    c.alone W (attempts W c fs cuts) = c.alone W fs ∧
      W.after (attempts W c fs cuts) (c.alone W (attempts W c fs cuts)).1 = W.after fs (c.alone W fs).1 := by
  have one : ∀ (fs : Files W.Loc) (n : Nat), c.alone W (W.after fs ((c.alone W fs).1.take n)) = c.alone W fs := by
    intro fs n
    refine processInputs_congr W _ _ _ _ _ fun i hi => ?_
    refine batch_frame W c.suffix c.folder fs c.inputs _ (List.take_prefix _ _) _ fun j hj stem ext hn heq => ?_
    exact hc _ ⟨j, hj, stem, ext, hn, heq⟩ ⟨i, hi, rfl⟩
  induction cuts generalizing fs with
  | nil => exact ⟨rfl, rfl⟩
  | cons n cuts ih =>
    have e : attempts W c fs (n :: cuts) = attempts W c (W.after fs ((c.alone W fs).1.take n)) cuts := rfl
    rw [e]
    obtain ⟨h1, h2⟩ := ih (W.after fs ((c.alone W fs).1.take n))
    rw [h1, one fs n]
    refine ⟨rfl, ?_⟩
    rw [h1, one fs n] at h2
    rw [h2, after_take_again]

/-- C94: so a clean batch that was interrupted any number of times is completed by running it again. -/
theorem recovery_clean (suffix : List Char) (folder : Option PathStr) (fs : Files W.Loc) (inputs : List PathStr)
    (results : List (W.Loc × List UInt8)) (h : CleanBatch W suffix folder fs inputs results) (cuts : List Nat) :
    let fs' := attempts W ⟨suffix, folder, inputs⟩ fs cuts
    (processInputs W suffix folder fs' inputs).2 = none ∧
      (∀ r ∈ results, W.after fs' (processInputs W suffix folder fs' inputs).1 r.1 = some r.2) ∧
      ∀ l, l ∉ results.map Prod.fst → W.after fs' (processInputs W suffix folder fs' inputs).1 l = fs l := by
  intro fs'
  have hc : ∀ l ∈ (⟨suffix, folder, inputs⟩ : Command).writes W, l ∉ (⟨suffix, folder, inputs⟩ : Command).reads W := by
    rintro l ⟨i, hi, stem, ext, hn, rfl⟩ ⟨j, hj, he⟩
    obtain ⟨k, hk, rfl⟩ := List.getElem_of_mem hi
    have hlen := h.marks.length_eq
    obtain ⟨_, _, _, _, stem', ext', _, _, _, _, e3, e4, _⟩ := (List.forall₂_iff_get.mp h.marks).2 k hk (hlen ▸ hk)
    have hne : some (stem', ext') = some (stem, ext) := ((namedAs_iff _ _ _).mp e3).symm.trans ((namedAs_iff _ _ _).mp hn)
    cases hne
    exact h.outputs_not_inputs _ (List.get_mem results ⟨k, hlen ▸ hk⟩) j hj (e4.trans he)
  obtain ⟨r1, r2⟩ := recovery W ⟨suffix, folder, inputs⟩ hc fs cuts
  obtain ⟨b1, b2, b3⟩ := batch_completes W suffix folder fs inputs results h
  have r1' : processInputs W suffix folder fs' inputs = processInputs W suffix folder fs inputs := r1
  have r2' : W.after fs' (processInputs W suffix folder fs' inputs).1 = W.after fs (processInputs W suffix folder fs inputs).1 := r2
  rw [r2', r1']
  exact ⟨b1, b2, b3⟩

/-- A run over two inputs that can be marked. -/
theorem two_inputs (suffix : List Char) (folder : Option PathStr) (fs : Files W.Loc) (i j : PathStr) (l l' : W.Loc) (a a' b b' : List UInt8)
    (hi : fs (W.resolve i) = some a) (hj : fs (W.resolve j) = some a') (hl : l ≠ W.resolve j) (hll : l ≠ l')
    (hm : MarksTo W suffix folder i a l b) (hm' : MarksTo W suffix folder j a' l' b') :
    let fs' := W.after fs (processInputs W suffix folder fs [i, j]).1
    (processInputs W suffix folder fs [i, j]).2 = none ∧ fs' l = some b ∧ fs' l' = some b' ∧ ∀ m, m ≠ l → m ≠ l' → fs' m = fs m := by
  intro fs'
  obtain ⟨es, e1, e2, e3⟩ := processInputs_cons_marks W suffix folder fs i [j] (l, b) a hi hm
  set fs1 := W.after fs (es ++ [(l, b)]) with hfs1
  have hj1 : fs1 (W.resolve j) = some a' := by
    rw [hfs1, after_other W fs es (l, b) e1 _ (Ne.symm hl)]
    exact hj
  obtain ⟨es', e1', e2', e3'⟩ := processInputs_cons_marks W suffix folder fs1 j [] (l', b') a' hj1 hm'
  have hnil : ∀ g : Files W.Loc, processInputs W suffix folder g [] = ([], none) := fun _ => rfl
  rw [hnil, List.append_nil] at e3'
  have hfs' : fs' = W.after fs1 (es' ++ [(l', b')]) := by
    show W.after fs (processInputs W suffix folder fs [i, j]).1 = _
    rw [e3, e3', after_append]
  refine ⟨by rw [e3, e3'], ?_, ?_, fun m h1 h2 => ?_⟩
  · rw [hfs', after_other W fs1 es' (l', b') e1' _ hll, hfs1, after_append]
    exact if_pos rfl
  · rw [hfs', after_append]
    exact if_pos rfl
  · rw [hfs', after_other W fs1 es' (l', b') e1' _ h2, hfs1, after_other W fs es (l, b) e1 _ h1]

/-- C94, the need for the condition: if the second input is written over the first one, running the command again marks the mark. -/
theorem rerun_differs (suffix : List Char) (folder : Option PathStr) (fs : Files W.Loc) (i j : PathStr) (l : W.Loc) (a a' b b' b'' : List UInt8)
    (hi : fs (W.resolve i) = some a) (hj : fs (W.resolve j) = some a') (h1 : l ≠ W.resolve i) (h2 : l ≠ W.resolve j)
    (h3 : W.resolve j ≠ W.resolve i) (hm : MarksTo W suffix folder i a l b) (hm' : MarksTo W suffix folder j a' (W.resolve i) b')
    (hm'' : MarksTo W suffix folder i b' l b'') :
    let once := W.after fs (processInputs W suffix folder fs [i, j]).1
    let twice := W.after once (processInputs W suffix folder once [i, j]).1
    once l = some b ∧ twice l = some b'' := by
  intro once twice
  obtain ⟨_, r1, r2, r3⟩ := two_inputs W suffix folder fs i j l (W.resolve i) a a' b b' hi hj h2 h1 hm hm'
  obtain ⟨_, s1, _, _⟩ := two_inputs W suffix folder once i j l (W.resolve i) b' a' b'' b' r2
    ((r3 _ (Ne.symm h2) h3).trans hj) h2 h1 hm'' hm'
  exact ⟨r1, s1⟩

end

/-- A run that is interrupted in the middle of the first file, then after five changes, and is then completed. -/
example : ∃ v,
    let fs' := attempts toyWorld ⟨"wm".toList, some "out".toList, ["in/a.png".toList, "in/b.png".toList]⟩ (fun _ => some [7]) [1, 5]
    let fs'' := toyWorld.after fs' (processInputs toyWorld "wm".toList (some "out".toList) fs' ["in/a.png".toList, "in/b.png".toList]).1
    fs'' "out/a-wm.png".toList = some [1, v] ∧ fs'' "out/b-wm.png".toList = some [1, v] := by
  obtain ⟨v, hv⟩ := toyWorld_clean
  obtain ⟨_, h2, _⟩ := recovery_clean toyWorld _ _ _ _ _ hv [1, 5]
  exact ⟨v, h2 ("out/a-wm.png".toList, [1, v]) List.mem_cons_self,
    h2 ("out/b-wm.png".toList, [1, v]) (List.mem_cons_of_mem _ List.mem_cons_self)⟩

/-- Marking in the world of `plainWorld`. -/
theorem plain_marks (n : Nat) (image : DynamicImage) (hw : image.width = n) (hh : image.height = n) (h8 : 8 ∣ n) (h216 : 216 ≤ n)
    (h256 : n ≠ 256) (input stem ext suffix : List Char) (folder : Option PathStr) (hname : NamedAs input stem ext) :
    ∃ marked : DynamicImage, marked.width = n ∧ marked.height = n ∧
      MarksTo (plainWorld idealLibm) suffix folder input (plainBytes image) (OutName stem ext suffix folder) (plainBytes marked) := by
  obtain ⟨got, g1, ⟨gw, gh, _⟩, _⟩ := plainWorld_reads idealLibm input image
  obtain ⟨marked, hm⟩ := program_marks idealLibm idealLibm_moduli got n (.fin 100) (.fin 1) (gw.trans hw) (gh.trans hh) h8 h216 h256 (by decide)
  obtain ⟨k1, k2, _⟩ := watermark_keeps_shape_and_alpha _ _ _ _ _ _ hm
  refine ⟨marked, k1.trans (gw.trans hw), k2.trans (gh.trans hh), got, marked, stem, ext, 0, [], g1, ?_, hname, rfl, rfl, rfl, rfl⟩
  rw [ofInt_100, ofInt_1]
  exact hm

/-- `a-wm.png` and `a.png` are marked with the suffix `wm`, twice: the second run marks what the first one wrote over `a-wm.png`. -/
example : ∃ (fs : Files PathStr) (b b' : List UInt8), b ≠ b' ∧
    let run := fun fs => (plainWorld idealLibm).after fs
      (processInputs (plainWorld idealLibm) "wm".toList none fs ["a-wm.png".toList, "a.png".toList]).1
    run fs "a-wm-wm.png".toList = some b ∧ run (run fs) "a-wm-wm.png".toList = some b' := by
  let small : DynamicImage := ⟨.Rgb8, 216, 216, fun _ _ => ⟨60, 60, 60, 255⟩⟩
  let fs : Files PathStr := fun l => if l = "a-wm.png".toList then some (plainBytes stripes) else some (plainBytes small)
  have n1 : NamedAs "a-wm.png".toList "a-wm".toList "png".toList := ⟨by decide, by decide, by decide⟩
  have n2 : NamedAs "a.png".toList "a".toList "png".toList := ⟨by decide, by decide, by decide⟩
  have o1 : OutName "a-wm".toList "png".toList "wm".toList none = "a-wm-wm.png".toList := by decide
  have o2 : OutName "a".toList "png".toList "wm".toList none = "a-wm.png".toList := by decide
  obtain ⟨p, p1, _, p2⟩ := plain_marks 512 stripes rfl rfl ⟨64, rfl⟩ (by norm_num) (by norm_num) _ _ _ "wm".toList none n1
  obtain ⟨q, q1, q1', q2⟩ := plain_marks 216 small rfl rfl ⟨27, rfl⟩ (by norm_num) (by norm_num) _ _ _ "wm".toList none n2
  obtain ⟨r, r1, _, r2⟩ := plain_marks 216 q q1 q1' ⟨27, rfl⟩ (by norm_num) (by norm_num) _ _ _ "wm".toList none n1
  rw [o1] at p2 r2
  rw [o2] at q2
  refine ⟨fs, plainBytes p, plainBytes r, ?_, ?_⟩
  · intro h
    have := (unary_inj _ _ _ _ h).1
    omega
  · have e1 : "a-wm-wm.png".toList ≠ "a-wm.png".toList := by decide
    have e2 : "a-wm-wm.png".toList ≠ "a.png".toList := by decide
    have e3 : "a.png".toList ≠ "a-wm.png".toList := by decide
    exact rerun_differs (plainWorld idealLibm) "wm".toList none fs "a-wm.png".toList "a.png".toList "a-wm-wm.png".toList
      (plainBytes stripes) (plainBytes small) _ _ _ (if_pos rfl) (if_neg e3) e1 e2 e3 p2 q2 r2

end Sia
