import Verif.Spec.CliSpec
import Verif.Lemmas.Lists
import Mathlib.Data.List.TakeWhile

/-! C43 (batch processing by the command line), C44 (display of elapsed times). -/
namespace Sia

theorem stemExt_spec (name s e : List Char) : stemExt name = some (s, e) ↔ name = s ++ '.' :: e ∧ '.' ∉ e ∧ s ≠ [] := by
  have hsplit := List.takeWhile_append_dropWhile (p := fun c : Char => decide (c ≠ '.')) (l := name.reverse)
  have hno : ∀ c ∈ name.reverse.takeWhile (fun c => decide (c ≠ '.')), c ≠ '.' := fun c hc => by
    simpa using List.mem_takeWhile_imp hc
  unfold stemExt
  dsimp only
  constructor
  · intro h
    cases hd : name.reverse.dropWhile (fun c => decide (c ≠ '.')) with
    | nil => rw [hd] at h; simp at h
    | cons x before =>
      rw [hd] at h
      dsimp only at h
      split_ifs at h with hb
      simp only [Option.some.injEq, Prod.mk.injEq] at h
      obtain ⟨rfl, rfl⟩ := h
      have hx : x = '.' := by
        have := List.head_dropWhile_not (fun c : Char => decide (c ≠ '.')) (l := name.reverse) (by rw [hd]; simp)
        simp only [hd, List.head_cons] at this
        simpa using this
      refine ⟨?_, ?_, by simpa using hb⟩
      · rw [hd, hx] at hsplit
        have := congrArg List.reverse hsplit
        rw [List.reverse_reverse] at this
        refine this.symm.trans ?_
        simp
      · intro hm
        exact hno '.' (by simpa using hm) rfl
  · rintro ⟨rfl, he, hs⟩
    have hrev : (s ++ '.' :: e).reverse = e.reverse ++ '.' :: s.reverse := by simp
    have hp : ∀ c ∈ e.reverse, decide (c ≠ '.') = true := by
      intro c hc
      have : c ≠ '.' := by rintro rfl; exact he (by simpa using hc)
      simpa using this
    rw [hrev, List.takeWhile_append_of_pos hp, List.dropWhile_append_of_pos hp]
    simp [hs]

theorem outputPath_eq (stem ext suffix : List Char) (folder : Option PathStr) :
    outputPath stem ext suffix folder = OutName stem ext suffix folder := by
  unfold outputPath OutName
  cases folder <;> simp

theorem prefix_append_cases {α : Type} {es a b : List α} (h : es <+: a ++ b) : es <+: a ∨ ∃ t, es = a ++ t ∧ t <+: b := by
  rcases List.prefix_or_prefix_of_prefix h (List.prefix_append a b) with h1 | ⟨t, rfl⟩
  · exact Or.inl h1
  · exact Or.inr ⟨t, rfl, (List.prefix_append_right_inj a).mp h⟩

section
variable {F : Type} [FloatOps F] (W : World F)

theorem after_append (fs : Files W.Loc) (a b : List (Event W)) : W.after fs (a ++ b) = W.after (W.after fs a) b := by
  unfold World.after; rw [List.foldl_append]

/-- A file that is not touched keeps its content. -/
theorem after_untouched (fs : Files W.Loc) (es : List (Event W)) (l : W.Loc) (h : ∀ e ∈ es, e.1 ≠ l) : W.after fs es l = fs l := by
  induction es generalizing fs with
  | nil => rfl
  | cons e es ih =>
    show W.after (W.step fs e) es l = fs l
    rw [ih _ (fun e' he' => h e' (List.mem_cons_of_mem _ he'))]
    unfold World.step
    rw [if_neg (fun hl => h e List.mem_cons_self hl.symm)]

theorem after_last (fs : Files W.Loc) (es : List (Event W)) (l : W.Loc) (c : List UInt8) :
    W.after fs (es ++ [(l, c)]) l = some c := by
  rw [after_append]
  show W.step _ (l, c) l = some c
  unfold World.step
  rw [if_pos rfl]

theorem namedAs_iff (input : PathStr) (s e : List Char) : NamedAs input s e ↔ (fileName input).bind stemExt = some (s, e) := by
  unfold NamedAs
  rw [Option.bind_eq_some_iff]
  constructor
  · rintro ⟨h1, h2, h3⟩
    exact ⟨_, h1, (stemExt_spec _ _ _).mpr ⟨rfl, h2, h3⟩⟩
  · rintro ⟨n, h1, h2⟩
    obtain ⟨rfl, h3, h4⟩ := (stemExt_spec _ _ _).mp h2
    exact ⟨h1, h3, h4⟩

/-- All changes made for an input are at its output location. -/
theorem processInput_events (fs : Files W.Loc) (suffix : List Char) (folder : Option PathStr) (input : PathStr) :
    ∀ e ∈ (processInput W fs suffix folder input).1, ∃ stem ext, NamedAs input stem ext ∧
      e.1 = W.resolve (OutName stem ext suffix folder) := by
  intro e he
  unfold processInput at he
  cases h1 : fs (W.resolve input) with
  | none => rw [h1] at he; simp at he
  | some content =>
  rw [h1] at he
  dsimp only at he
  cases h2 : W.decode input content with
  | none => rw [h2] at he; simp at he
  | some image =>
  rw [h2] at he
  dsimp only at he
  cases h3 : watermark W.deps image (FloatOps.ofInt 100) (FloatOps.ofInt 1) 11 with
  | error p => rw [h3] at he; simp at he
  | ok marked =>
  rw [h3] at he
  dsimp only at he
  cases h4 : (fileName input).bind stemExt with
  | none => rw [h4] at he; simp at he
  | some se =>
  obtain ⟨stem, ext⟩ := se
  rw [h4] at he
  dsimp only at he
  refine ⟨stem, ext, (namedAs_iff input stem ext).mpr h4, ?_⟩
  rw [← outputPath_eq]
  split_ifs at he with h5
  · cases h6 : W.formatOf (outputPath stem ext suffix folder) with
    | none => rw [h6] at he; simp at he; rw [he]
    | some format =>
      rw [h6] at he
      dsimp only at he
      rcases List.mem_cons.mp he with rfl | he'
      · rfl
      · obtain ⟨c, _, rfl⟩ := List.mem_map.mp he'
        rfl
  · simp at he

/-- What is done for an input that can be watermarked. -/
theorem processInput_marks (fs : Files W.Loc) (suffix : List Char) (folder : Option PathStr) (input : PathStr)
    (content : List UInt8) (loc : W.Loc) (final : List UInt8) (hc : fs (W.resolve input) = some content)
    (h : MarksTo W suffix folder input content loc final) :
    ∃ es, processInput W fs suffix folder input = (es ++ [(loc, final)], none) ∧ ∀ e ∈ es, e.1 = loc := by
  obtain ⟨image, marked, stem, ext, format, contents, h1, h2, h3, h4, h5, h6, h7⟩ := h
  rw [namedAs_iff] at h3
  rw [← outputPath_eq] at h4 h6
  subst h4
  refine ⟨(W.resolve (outputPath stem ext suffix folder), []) :: contents.map fun c => (W.resolve (outputPath stem ext suffix folder), c),
    ?_, ?_⟩
  · unfold processInput
    simp only [hc, h1, h2, h3, h5, h6, h7, if_true]
    simp
  · intro e he
    rcases List.mem_cons.mp he with rfl | he'
    · rfl
    · obtain ⟨c, _, rfl⟩ := List.mem_map.mp he'
      rfl

theorem CleanBatch.tail {suffix : List Char} {folder : Option PathStr} {fs fs' : Files W.Loc} {i : PathStr} {inputs : List PathStr}
    {r : W.Loc × List UInt8} {results : List (W.Loc × List UInt8)} (h : CleanBatch W suffix folder fs (i :: inputs) (r :: results))
    (hfs : ∀ l, l ≠ r.1 → fs' l = fs l) : CleanBatch W suffix folder fs' inputs results := by
  obtain ⟨h1, h2, h3⟩ := h
  have h1' := (List.forall₂_cons.mp h1).2
  refine ⟨?_, (List.nodup_cons.mp h2).2, fun r' hr' i' hi' => h3 r' (List.mem_cons_of_mem _ hr') i' (List.mem_cons_of_mem _ hi')⟩
  have key : ∀ (is : List PathStr) (rs : List (W.Loc × List UInt8)), (∀ i' ∈ is, r.1 ≠ W.resolve i') →
      List.Forall₂ (fun i r => ∃ content, fs (W.resolve i) = some content ∧ MarksTo W suffix folder i content r.1 r.2) is rs →
      List.Forall₂ (fun i r => ∃ content, fs' (W.resolve i) = some content ∧ MarksTo W suffix folder i content r.1 r.2) is rs := by
    intro is rs hne hf
    induction hf with
    | nil => exact .nil
    | cons hd _ ih =>
      obtain ⟨c, e1, e2⟩ := hd
      refine .cons ⟨c, ?_, e2⟩ (ih fun i' hi' => hne i' (List.mem_cons_of_mem _ hi'))
      rw [hfs _ (fun he => hne _ List.mem_cons_self he.symm)]
      exact e1
  exact key inputs results (fun i' hi' => h3 r List.mem_cons_self i' (List.mem_cons_of_mem _ hi')) h1'

theorem processInputs_cons_marks (suffix : List Char) (folder : Option PathStr) (fs : Files W.Loc) (i : PathStr)
    (inputs : List PathStr) (r : W.Loc × List UInt8) (content : List UInt8)
    (hc : fs (W.resolve i) = some content) (hm : MarksTo W suffix folder i content r.1 r.2) :
    ∃ es, (∀ e ∈ es, e.1 = r.1) ∧ processInput W fs suffix folder i = (es ++ [r], none) ∧
      processInputs W suffix folder fs (i :: inputs) =
        ((es ++ [r]) ++ (processInputs W suffix folder (W.after fs (es ++ [r])) inputs).1,
          (processInputs W suffix folder (W.after fs (es ++ [r])) inputs).2) := by
  obtain ⟨es, he, hl⟩ := processInput_marks W fs suffix folder i content r.1 r.2 hc hm
  refine ⟨es, hl, he, ?_⟩
  conv_lhs => unfold processInputs
  rw [he]

theorem after_other (fs : Files W.Loc) (es : List (Event W)) (r : W.Loc × List UInt8) (hes : ∀ e ∈ es, e.1 = r.1) (l : W.Loc)
    (hl : l ≠ r.1) : W.after fs (es ++ [r]) l = fs l := by
  apply after_untouched
  intro e he heq
  rcases List.mem_append.mp he with h | h
  · exact hl (heq.symm.trans (hes e h))
  · rw [List.mem_singleton] at h
    subst h
    exact hl heq.symm

theorem processInputs_clean (suffix : List Char) (folder : Option PathStr) (inputs : List PathStr) :
    ∀ (results : List (W.Loc × List UInt8)) (fs : Files W.Loc), CleanBatch W suffix folder fs inputs results →
      (processInputs W suffix folder fs inputs).2 = none ∧
      (∀ e ∈ (processInputs W suffix folder fs inputs).1, e.1 ∈ results.map Prod.fst) ∧
      ∀ r ∈ results, W.after fs (processInputs W suffix folder fs inputs).1 r.1 = some r.2 := by
  induction inputs with
  | nil =>
    intro results fs h
    have := h.marks
    rw [List.forall₂_nil_left_iff] at this
    subst this
    refine ⟨rfl, ?_, by simp⟩
    intro e he; exact absurd he (by simp [processInputs])
  | cons i inputs ih =>
    intro results fs h
    have hm := h.marks
    rw [List.forall₂_cons_left_iff] at hm
    obtain ⟨r, rs, ⟨content, hc, hmk⟩, _, rfl⟩ := hm
    obtain ⟨es, hes, _, hrun⟩ := processInputs_cons_marks W suffix folder fs i inputs r content hc hmk
    have hfs := fun l => after_other W fs es r hes l
    obtain ⟨g1, g2, g3⟩ := ih rs (W.after fs (es ++ [r])) (CleanBatch.tail W h hfs)
    rw [hrun]
    dsimp only
    refine ⟨g1, ?_, ?_⟩
    · intro e he
      rcases List.mem_append.mp he with he | he
      · rcases List.mem_append.mp he with he | he
        · rw [hes e he]; exact List.mem_cons_self
        · rw [List.mem_singleton] at he; subst he; exact List.mem_cons_self
      · exact List.mem_cons_of_mem _ (g2 e he)
    · intro r' hr'
      rw [after_append]
      rcases List.mem_cons.mp hr' with rfl | hr'
      · rw [after_untouched]
        · exact after_last W fs es r'.1 r'.2
        · intro e he heq
          have := g2 e he
          rw [heq] at this
          exact (List.nodup_cons.mp h.outputs_distinct).1 this
      · exact g3 r' hr'

/-- C43: a clean batch completes; every output holds the watermarked content of its input as it was before the run, and every
other file is unchanged. -/
theorem batch_completes (suffix : List Char) (folder : Option PathStr) (fs : Files W.Loc) (inputs : List PathStr)
    (results : List (W.Loc × List UInt8)) (h : CleanBatch W suffix folder fs inputs results) :
    (processInputs W suffix folder fs inputs).2 = none ∧
      (∀ r ∈ results, W.after fs (processInputs W suffix folder fs inputs).1 r.1 = some r.2) ∧
      ∀ l, l ∉ results.map Prod.fst → W.after fs (processInputs W suffix folder fs inputs).1 l = fs l := by
  obtain ⟨h1, h2, h3⟩ := processInputs_clean W suffix folder inputs results fs h
  refine ⟨h1, h3, fun l hl => ?_⟩
  apply after_untouched
  intro e he heq
  exact hl (heq ▸ h2 e he)

/-- C43: whatever happens, at whatever point the run is interrupted, only output files of its inputs have been changed. -/
theorem batch_frame (suffix : List Char) (folder : Option PathStr) (fs : Files W.Loc) (inputs : List PathStr)
    (es : List (Event W)) (hes : es <+: (processInputs W suffix folder fs inputs).1) (l : W.Loc)
    (hl : ∀ i ∈ inputs, ∀ stem ext, NamedAs i stem ext → l ≠ W.resolve (OutName stem ext suffix folder)) :
    W.after fs es l = fs l := by
  apply after_untouched
  intro e he
  have hmem := hes.subset he
  have key : ∀ (inputs : List PathStr) (fs : Files W.Loc), (∀ i ∈ inputs, ∀ stem ext, NamedAs i stem ext →
      l ≠ W.resolve (OutName stem ext suffix folder)) → ∀ e ∈ (processInputs W suffix folder fs inputs).1, e.1 ≠ l := by
    intro inputs
    induction inputs with
    | nil => intro fs _ e he; exact absurd he (by simp [processInputs])
    | cons i inputs ih =>
      intro fs hl e he
      have hone : ∀ e ∈ (processInput W fs suffix folder i).1, e.1 ≠ l := by
        intro e he heq
        obtain ⟨stem, ext, h1, h2⟩ := processInput_events W fs suffix folder i e he
        exact hl i List.mem_cons_self stem ext h1 (heq ▸ h2)
      unfold processInputs at he
      rcases hp : processInput W fs suffix folder i with ⟨es, r⟩
      rw [hp] at he hone
      cases r with
      | some p => exact hone e he
      | none =>
        dsimp only at he
        rcases List.mem_append.mp he with he | he
        · exact hone e he
        · exact ih _ (fun i' hi' => hl i' (List.mem_cons_of_mem _ hi')) e he
  exact key inputs fs hl e hmem

/-- C43: wherever a clean batch is interrupted, there is a number `k` such that the outputs of the first `k` inputs are complete
and the outputs of the inputs after the next one are as before the run. -/
theorem batch_interrupted (suffix : List Char) (folder : Option PathStr) (inputs : List PathStr) :
    ∀ (results : List (W.Loc × List UInt8)) (fs : Files W.Loc), CleanBatch W suffix folder fs inputs results →
      ∀ es, es <+: (processInputs W suffix folder fs inputs).1 → ∃ k ≤ inputs.length,
        (∀ r ∈ results.take k, W.after fs es r.1 = some r.2) ∧ ∀ r ∈ results.drop (k + 1), W.after fs es r.1 = fs r.1 := by
  induction inputs with
  | nil =>
    intro results fs h es hes
    have := h.marks
    rw [List.forall₂_nil_left_iff] at this
    subst this
    exact ⟨0, le_rfl, by simp, by simp⟩
  | cons i inputs ih =>
    intro results fs h es hes
    have hm := h.marks
    rw [List.forall₂_cons_left_iff] at hm
    obtain ⟨r, rs, ⟨content, hc, hmk⟩, _, rfl⟩ := hm
    obtain ⟨es0, hes0, _, hrun⟩ := processInputs_cons_marks W suffix folder fs i inputs r content hc hmk
    rw [hrun] at hes
    dsimp only at hes
    have hnd := List.nodup_cons.mp h.outputs_distinct
    rcases prefix_append_cases hes with hpre | ⟨t, rfl, ht⟩
    · refine ⟨0, by simp, by simp, ?_⟩
      intro r' hr'
      have hr'' : r' ∈ rs := by simpa using hr'
      apply after_untouched
      intro e he heq
      have he' := hpre.subset he
      have hloc : e.1 = r.1 := by
        rcases List.mem_append.mp he' with h | h
        · exact hes0 e h
        · rw [List.mem_singleton] at h; rw [h]
      apply hnd.1
      show r.1 ∈ rs.map Prod.fst
      rw [← hloc, heq]
      exact List.mem_map_of_mem hr''
    · have hfs := fun l => after_other W fs es0 r hes0 l
      have hclean := CleanBatch.tail W h hfs
      obtain ⟨k, hk, g1, g2⟩ := ih rs (W.after fs (es0 ++ [r])) hclean t ht
      obtain ⟨_, gl, _⟩ := processInputs_clean W suffix folder inputs rs _ hclean
      refine ⟨k + 1, by simpa using hk, ?_, ?_⟩
      · intro r' hr'
        rw [after_append]
        rw [List.take_succ_cons] at hr'
        rcases List.mem_cons.mp hr' with rfl | hr'
        · rw [after_untouched]
          · exact after_last W fs es0 r'.1 r'.2
          · intro e he heq
            have := gl e (ht.subset he)
            rw [heq] at this
            exact hnd.1 this
        · exact g1 r' hr'
      · intro r' hr'
        rw [after_append]
        rw [List.drop_succ_cons] at hr'
        rw [g2 r' hr', hfs]
        intro heq
        apply hnd.1
        show r.1 ∈ rs.map Prod.fst
        rw [← heq]
        exact List.mem_map_of_mem (List.mem_of_mem_drop hr')

/-- C43: processing stops at the first input that fails: the outputs of the inputs before it are complete (unless the failing
input's own output overwrote one), nothing is done for the inputs after it, and the failure is the failing input's. -/
theorem batch_stops (suffix : List Char) (folder : Option PathStr) (good : List PathStr) :
    ∀ (results : List (W.Loc × List UInt8)) (fs : Files W.Loc) (bad : PathStr) (later : List PathStr)
      (_ : CleanBatch W suffix folder fs good results) (_ : ∀ r ∈ results, r.1 ≠ W.resolve bad) (p : Panic)
      (_ : (processInput W fs suffix folder bad).2 = some p)
      (_ : ∀ stem ext, NamedAs bad stem ext → W.resolve (OutName stem ext suffix folder) ∉ results.map Prod.fst),
      (processInputs W suffix folder fs (good ++ bad :: later)).2 = some p ∧
      processInputs W suffix folder fs (good ++ bad :: later) = processInputs W suffix folder fs (good ++ [bad]) ∧
      ∀ r ∈ results, W.after fs (processInputs W suffix folder fs (good ++ bad :: later)).1 r.1 = some r.2 := by
  induction good with
  | nil =>
    intro results fs bad later h hne p hp hout
    have := h.marks
    rw [List.forall₂_nil_left_iff] at this
    subst this
    rcases hpi : processInput W fs suffix folder bad with ⟨es, r⟩
    rw [hpi] at hp
    dsimp only at hp
    subst hp
    have e : ∀ l, processInputs W suffix folder fs (bad :: l) = (es, some p) := by
      intro l
      unfold processInputs
      rw [hpi]
    rw [List.nil_append, List.nil_append, e, e]
    exact ⟨rfl, rfl, by simp⟩
  | cons i good ih =>
    intro results fs bad later h hne p hp hout
    have hm := h.marks
    rw [List.forall₂_cons_left_iff] at hm
    obtain ⟨r, rs, ⟨content, hc, hmk⟩, _, rfl⟩ := hm
    have hnd := List.nodup_cons.mp h.outputs_distinct
    obtain ⟨es0, hes0, hone, hrun⟩ := processInputs_cons_marks W suffix folder fs i (good ++ bad :: later) r content hc hmk
    obtain ⟨es1, _, hone1, hrun1⟩ := processInputs_cons_marks W suffix folder fs i (good ++ [bad]) r content hc hmk
    rw [hone] at hone1
    have e01 : es0 ++ [r] = es1 ++ [r] := congrArg Prod.fst hone1
    rw [← e01] at hrun1
    have hfs := fun l => after_other W fs es0 r hes0 l
    have hclean := CleanBatch.tail W h hfs
    have hbad : processInput W (W.after fs (es0 ++ [r])) suffix folder bad = processInput W fs suffix folder bad := by
      unfold processInput
      rw [hfs _ (fun he => hne r List.mem_cons_self he.symm)]
    obtain ⟨g1, g2, g3⟩ := ih rs (W.after fs (es0 ++ [r])) bad later hclean (fun r' hr' => hne r' (List.mem_cons_of_mem _ hr')) p
      (by rw [hbad]; exact hp) (fun stem ext hn hmem => hout stem ext hn (List.mem_cons_of_mem _ hmem))
    rw [List.cons_append, List.cons_append, hrun, hrun1]
    dsimp only
    refine ⟨g1, by rw [g2], ?_⟩
    intro r' hr'
    rw [after_append]
    rcases List.mem_cons.mp hr' with rfl | hr'
    · -- later events do not touch r'
      rw [after_untouched]
      · exact after_last W fs es0 r'.1 r'.2
      · intro e he heq
        -- e belongs to the outputs of good or of bad
        have hev : ∀ (good : List PathStr) (rs : List (W.Loc × List UInt8)) (fs : Files W.Loc),
            CleanBatch W suffix folder fs good rs → (∀ q ∈ rs, q.1 ≠ W.resolve bad) → ∀ e ∈ (processInputs W suffix folder fs (good ++ [bad])).1,
            e.1 ∈ rs.map Prod.fst ∨ ∃ stem ext, NamedAs bad stem ext ∧ e.1 = W.resolve (OutName stem ext suffix folder) := by
          intro good
          induction good with
          | nil =>
            intro rs fs hcl _ e he
            right
            unfold processInputs at he
            rcases hpi : processInput W fs suffix folder bad with ⟨es, r⟩
            simp only [List.nil_append] at he
            have : e ∈ (processInput W fs suffix folder bad).1 := by
              rw [hpi] at he ⊢
              cases r with
              | some p => exact he
              | none => simpa [processInputs] using he
            exact processInput_events W fs suffix folder bad e this
          | cons j good ihg =>
            intro rs fs hcl hne e he
            have hm := hcl.marks
            rw [List.forall₂_cons_left_iff] at hm
            obtain ⟨q, qs, ⟨content, hc, hmk⟩, _, rfl⟩ := hm
            obtain ⟨es2, hes2, _, hrun2⟩ := processInputs_cons_marks W suffix folder fs j (good ++ [bad]) q content hc hmk
            rw [List.cons_append, hrun2] at he
            dsimp only at he
            rcases List.mem_append.mp he with he | he
            · left
              rcases List.mem_append.mp he with he | he
              · rw [hes2 e he]; exact List.mem_cons_self
              · rw [List.mem_singleton] at he; subst he; exact List.mem_cons_self
            · rcases ihg qs _ (CleanBatch.tail W hcl (fun l => after_other W fs es2 q hes2 l))
                (fun q' hq' => hne q' (List.mem_cons_of_mem _ hq')) e he with h' | h'
              · left; exact List.mem_cons_of_mem _ h'
              · right; exact h'
        rw [g2] at he
        rcases hev good rs _ hclean (fun r' hr' => hne r' (List.mem_cons_of_mem _ hr')) e he with h' | ⟨stem, ext, hn, h'⟩
        · rw [heq] at h'; exact hnd.1 h'
        · apply hout stem ext hn
          rw [← h', heq]
          exact List.mem_cons_self
    · exact g3 r' hr'

/-- C43: without a suffix nothing happens. -/
theorem batch_without_suffix (fs : Files W.Loc) (inputs : List PathStr) (output : Option PathStr) :
    process W fs inputs none output = ([], none) := rfl

/-- C43: with a suffix, `process` is the loop over the inputs, after the folder was found or made. -/
theorem process_with_suffix (fs : Files W.Loc) (inputs : List PathStr) (suffix : List Char) :
    process W fs inputs (some suffix) none = processInputs W suffix none fs inputs ∧
      ∀ o f, W.blocked o = false → W.folder o = some f →
        process W fs inputs (some suffix) (some o) = processInputs W suffix (some f) fs inputs := by
  refine ⟨rfl, fun o f hb h => ?_⟩
  show (if W.blocked o = true then _ else match W.folder o with | none => _ | some f => _) = _
  rw [if_neg (by rw [hb]; decide), h]

/-- C43: asking for help, giving no files or unparsable arguments changes nothing. -/
theorem main_without_work (fs : Files W.Loc) (m : Option Matches)
    (h : m = none ∨ ∃ q, m = some q ∧ (q.help = true ∨ q.free = [] ∨ q.suffix = none)) : (cliMain W fs m).1 = [] := by
  rcases h with rfl | ⟨q, rfl, h⟩
  · rfl
  · unfold cliMain
    dsimp only
    split_ifs with h1 h2
    · rfl
    · rfl
    · rcases h with h | h | h
      · exact absurd h h1
      · exact absurd h h2
      · rw [h]; rfl

/-- C43: otherwise the free arguments are processed in order. -/
theorem main_processes (fs : Files W.Loc) (m : Matches) (h1 : m.help = false) (h2 : m.free ≠ []) :
    cliMain W fs (some m) = process W fs m.free m.suffix m.output := by
  unfold cliMain
  simp [h1, h2]

/-- C43: the output never has the name of its own input. -/
theorem output_name_differs (stem ext suffix : List Char) : stem ++ '-' :: suffix ++ '.' :: ext ≠ stem ++ '.' :: ext := by
  intro h
  have := congrArg List.length h
  simp at this
  omega

/-- C43, the proviso is needed: inputs with equal file names (in different folders) have the same output, and the first output
is lost. -/
theorem equal_names_collide (suffix : List Char) (folder : Option PathStr) (fs : Files W.Loc) (i j : PathStr)
    (hname : fileName i = fileName j) (ci cj : List UInt8) (ri rj : W.Loc × List UInt8)
    (hi : fs (W.resolve i) = some ci) (hj : fs (W.resolve j) = some cj)
    (hmi : MarksTo W suffix folder i ci ri.1 ri.2) (hmj : MarksTo W suffix folder j cj rj.1 rj.2) (hsep : ri.1 ≠ W.resolve j) :
    ri.1 = rj.1 ∧ (processInputs W suffix folder fs [i, j]).2 = none ∧
      W.after fs (processInputs W suffix folder fs [i, j]).1 ri.1 = some rj.2 := by
  have hloc : ri.1 = rj.1 := by
    obtain ⟨_, _, s1, e1, _, _, _, _, n1, l1, _⟩ := hmi
    obtain ⟨_, _, s2, e2, _, _, _, _, n2, l2, _⟩ := hmj
    have h1 := (namedAs_iff i s1 e1).mp n1
    have h2 := (namedAs_iff j s2 e2).mp n2
    rw [hname, h2] at h1
    cases h1
    rw [l1, l2]
  obtain ⟨es0, hes0, _, hrun⟩ := processInputs_cons_marks W suffix folder fs i [j] ri ci hi hmi
  have hj' : W.after fs (es0 ++ [ri]) (W.resolve j) = some cj := by
    rw [after_other W fs es0 ri hes0 _ (fun h => hsep h.symm), hj]
  obtain ⟨es1, hes1, _, hrun1⟩ := processInputs_cons_marks W suffix folder (W.after fs (es0 ++ [ri])) j [] rj cj hj' hmj
  rw [hrun, hrun1]
  refine ⟨hloc, rfl, ?_⟩
  show W.after fs ((es0 ++ [ri]) ++ ((es1 ++ [rj]) ++ [])) ri.1 = some rj.2
  rw [List.append_nil, ← List.append_assoc, hloc]
  exact after_last W fs _ rj.1 rj.2

/-- C43, the proviso is needed: if the output for `i` is the file `j`, a later input, then `j` is overwritten before it is read:
what is watermarked as `j` is the watermarked `i`, and the original content of `j` is never read. -/
theorem later_input_overwritten (suffix : List Char) (folder : Option PathStr) (fs : Files W.Loc) (i j : PathStr)
    (ci : List UInt8) (ri rj : W.Loc × List UInt8) (hi : fs (W.resolve i) = some ci)
    (hmi : MarksTo W suffix folder i ci ri.1 ri.2) (hclash : ri.1 = W.resolve j)
    (hmj : MarksTo W suffix folder j ri.2 rj.1 rj.2) :
    (processInputs W suffix folder fs [i, j]).2 = none ∧
      W.after fs (processInputs W suffix folder fs [i, j]).1 rj.1 = some rj.2 ∧
      (ri.1 ≠ rj.1 → W.after fs (processInputs W suffix folder fs [i, j]).1 (W.resolve j) = some ri.2) := by
  obtain ⟨es0, hes0, _, hrun⟩ := processInputs_cons_marks W suffix folder fs i [j] ri ci hi hmi
  have hj' : W.after fs (es0 ++ [ri]) (W.resolve j) = some ri.2 := by
    rw [← hclash]; exact after_last W fs es0 ri.1 ri.2
  obtain ⟨es1, hes1, _, hrun1⟩ := processInputs_cons_marks W suffix folder (W.after fs (es0 ++ [ri])) j [] rj ri.2 hj' hmj
  rw [hrun, hrun1]
  refine ⟨rfl, ?_, ?_⟩
  · show W.after fs ((es0 ++ [ri]) ++ ((es1 ++ [rj]) ++ [])) rj.1 = some rj.2
    rw [List.append_nil, ← List.append_assoc]
    exact after_last W fs _ rj.1 rj.2
  · intro hne
    show W.after fs ((es0 ++ [ri]) ++ ((es1 ++ [rj]) ++ [])) (W.resolve j) = some ri.2
    rw [List.append_nil, after_append, ← hclash, after_other W _ es1 rj hes1 _ hne, hclash, hj']

end

/-! ### C44 -/

/-- A number of hundredths as `s.hh`. -/
def hundredths (v : Nat) : String := toString (v / 100) ++ "." ++ (if v % 100 < 10 then "0" ++ toString (v % 100) else toString (v % 100))

/-- C44: the display is a truncation: with `t` the elapsed nanoseconds, the shown number `v` of units of `u` nanoseconds
satisfies `v * u ≤ t < (v + 1) * u`; nanoseconds below a microsecond, microseconds below a millisecond, milliseconds below a
second, hundredths of a second below ten seconds, whole seconds from there on. -/
theorem elapsed_truncates (secs nanos : Nat) (hn : nanos < 1000000000) :
    let t := secs * 1000000000 + nanos
    ∃ (v u : Nat) (shown : String), displayElapsed secs nanos = shown ∧ v * u ≤ t ∧ t < (v + 1) * u ∧
      ((t < 1000 ∧ u = 1 ∧ shown = toString v ++ " ns") ∨
       (1000 ≤ t ∧ t < 1000000 ∧ u = 1000 ∧ shown = toString v ++ " µs") ∨
       (1000000 ≤ t ∧ t < 1000000000 ∧ u = 1000000 ∧ shown = toString v ++ " ms") ∨
       (1000000000 ≤ t ∧ t < 10000000000 ∧ u = 10000000 ∧ shown = hundredths v ++ " s") ∨
       (10000000000 ≤ t ∧ u = 1000000000 ∧ shown = toString v ++ " s")) := by
  intro t
  unfold displayElapsed
  by_cases h1 : secs = 0 ∧ nanos < 1000
  · rw [if_pos h1]
    exact ⟨nanos, 1, _, rfl, by omega, by omega, Or.inl ⟨by omega, rfl, rfl⟩⟩
  rw [if_neg h1]
  by_cases h2 : secs = 0 ∧ nanos < 1000000
  · rw [if_pos h2]
    exact ⟨nanos / 1000, 1000, _, rfl, by omega, by omega, Or.inr (Or.inl ⟨by omega, by omega, rfl, rfl⟩)⟩
  rw [if_neg h2]
  by_cases h3 : secs = 0
  · rw [if_pos h3]
    exact ⟨nanos / 1000000, 1000000, _, rfl, by omega, by omega, Or.inr (Or.inr (Or.inl ⟨by omega, by omega, rfl, rfl⟩))⟩
  rw [if_neg h3]
  by_cases h4 : secs < 10
  · rw [if_pos h4]
    refine ⟨secs * 100 + nanos / 10000000, 10000000, _, rfl, by omega, by omega,
      Or.inr (Or.inr (Or.inr (Or.inl ⟨by omega, by omega, rfl, ?_⟩)))⟩
    unfold hundredths
    rw [show (secs * 100 + nanos / 10000000) / 100 = secs by omega,
      show (secs * 100 + nanos / 10000000) % 100 = nanos / 10000000 by omega]
  · rw [if_neg h4]
    exact ⟨secs, 1000000000, _, rfl, by omega, by omega, Or.inr (Or.inr (Or.inr (Or.inr ⟨by omega, rfl, rfl⟩)))⟩


end Sia
