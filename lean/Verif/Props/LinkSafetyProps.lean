import Verif.Props.LinkTreeProps
import Verif.Props.SharedOutputsProps

/-! C101: what the tool does to a tree with symbolic links. -/
namespace Sia

section
variable {F : Type} [FloatOps F]

/-- Only files that can be created are changed. -/
theorem processInput_creatable (W : World F) (fs : Files W.Loc) (suffix : List Char) (folder : Option PathStr) (input : PathStr) :
    ∀ e ∈ (processInput W fs suffix folder input).1, W.creatable e.1 = true := by
  intro e he
  unfold processInput at he
  cases h1 : fs (W.resolve input) with
  | none => rw [h1] at he; simp at he
  | some content =>
    rw [h1] at he
    dsimp only at he
    cases h2 : W.decode input content with
    | none => rw [h2] at he; simp at he
    | some image =>
      rw [h2] at he
      dsimp only at he
      cases h3 : watermark W.deps image (FloatOps.ofInt 100) (FloatOps.ofInt 1) 11 with
      | error p => rw [h3] at he; simp at he
      | ok marked =>
        rw [h3] at he
        dsimp only at he
        cases h4 : (fileName input).bind stemExt with
        | none => rw [h4] at he; simp at he
        | some se =>
          obtain ⟨stem, ext⟩ := se
          rw [h4] at he
          dsimp only at he
          cases h5 : W.creatable (W.resolve (outputPath stem ext suffix folder)) with
          | false => rw [h5] at he; simp at he
          | true =>
            rw [h5] at he
            simp only [if_true] at he
            cases h6 : W.formatOf (outputPath stem ext suffix folder) with
            | none =>
              rw [h6] at he
              rw [List.mem_singleton.mp he]
              exact h5
            | some format =>
              rw [h6] at he
              dsimp only at he
              rcases List.mem_cons.mp he with rfl | he
              · exact h5
              · obtain ⟨b, -, rfl⟩ := List.mem_map.mp he
                exact h5

/-- Every change is of a file that can be created, the output of one of the inputs. -/
theorem processInputs_creatable (W : World F) (suffix : List Char) (folder : Option PathStr) (inputs : List PathStr) : ∀ fs : Files W.Loc,
    ∀ e ∈ (processInputs W suffix folder fs inputs).1, W.creatable e.1 = true ∧ ∃ i ∈ inputs, ∃ stem ext, NamedAs i stem ext ∧
      e.1 = W.resolve (OutName stem ext suffix folder) := by
  induction inputs with
  | nil => intro fs e he; simp [processInputs] at he
  | cons i inputs ih =>
    intro fs e he
    have h : ∀ e ∈ (processInput W fs suffix folder i).1, W.creatable e.1 = true ∧ ∃ i' ∈ i :: inputs, ∃ stem ext, NamedAs i' stem ext ∧
        e.1 = W.resolve (OutName stem ext suffix folder) := fun e he =>
      ⟨processInput_creatable W fs suffix folder i e he, i, List.mem_cons_self, processInput_events W fs suffix folder i e he⟩
    simp only [processInputs] at he
    rcases hp : processInput W fs suffix folder i with ⟨es, _ | p⟩
    · rw [hp] at he h
      rcases List.mem_append.mp he with he | he
      · exact h e he
      · obtain ⟨g1, i', hi', g2⟩ := ih _ e he
        exact ⟨g1, i', List.mem_cons_of_mem _ hi', g2⟩
    · rw [hp] at he h
      exact h e he

theorem process_folder (W : World F) (fs : Files W.Loc) (inputs : List PathStr) (s : List Char) (o f : PathStr) (hb : W.blocked o = false)
    (hf : W.folder o = some f) : process W fs inputs (some s) (some o) = processInputs W s (some f) fs inputs := by
  simp only [process, hb, hf, Bool.false_eq_true, if_false]

theorem process_blocked (W : World F) (fs : Files W.Loc) (inputs : List PathStr) (s : List Char) (o : PathStr) (hb : W.blocked o = true) :
    process W fs inputs (some s) (some o) = ([], some .exitOne) := by
  simp only [process, hb, if_true]

theorem process_missing (W : World F) (fs : Files W.Loc) (inputs : List PathStr) (s : List Char) (o : PathStr) (hb : W.blocked o = false)
    (hf : W.folder o = none) : process W fs inputs (some s) (some o) = ([], some .fileError) := by
  simp only [process, hb, hf, Bool.false_eq_true, if_false]

theorem processInputs_one (W : World F) (fs : Files W.Loc) (s : List Char) (folder : Option PathStr) (input : PathStr) (es : List (Event W))
    (h : processInput W fs s folder input = (es, none)) : processInputs W s folder fs [input] = (es, none) := by
  simp only [processInputs, h, List.append_nil]

variable (H : Host F) (T : LinkDisk)

/-- The run when the output folder is there. -/
theorem link_process (inputs : List PathStr) (suffix : List Char) (output : Option PathStr) (dir : Place)
    (h1 : LinkOutputsIn H T output dir) (fs : Files (Option Place)) :
    process (H.linkWorld T) fs inputs (some suffix) output =
      processInputs (H.linkWorld T) suffix (output.map fun _ => absolute dir) fs inputs := by
  cases output with
  | none => rfl
  | some o =>
    obtain ⟨h2, h3⟩ := h1
    have hb : (H.linkWorld T).blocked o = false := by
      show (match T.find H.cwd (parsePath o) with | .ok l => !T.isDir l && T.occupied l | .error _ => false) = false
      rw [h3]
      simp [h2]
    have hf : (H.linkWorld T).folder o = some (absolute dir) := by
      show (match T.find H.cwd (parsePath o) with | .ok l => if T.occupied l then some (absolute l) else none | .error _ => none) = _
      rw [h3]
      simp [Disk.occupied, h2]
    exact process_folder (H.linkWorld T) fs inputs suffix o _ hb hf

/-- C101: an output folder that is a file, links followed, ends the run with status 1 before anything is changed. -/
theorem link_output_is_file (hT : T.Sound) (inputs : List PathStr) (suffix : List Char) (o : PathStr) (l : Place)
    (h : T.find H.cwd (parsePath o) = .ok l) (hl : T.content l ≠ none) (fs : Files (Option Place)) :
    process (H.linkWorld T) fs inputs (some suffix) (some o) = ([], some .exitOne) := by
  have hd : T.isDir l = false := by
    rw [Bool.eq_false_iff]
    exact fun hd => hl (hT.tree.apart l hd)
  have hb : (H.linkWorld T).blocked o = true := by
    show (match T.find H.cwd (parsePath o) with | .ok l => !T.isDir l && T.occupied l | .error _ => false) = true
    rw [h]
    simp only [Disk.occupied, hd, Bool.not_false, Bool.true_and, Bool.false_or]
    exact Option.isSome_iff_ne_none.mpr hl
  exact process_blocked (H.linkWorld T) fs inputs suffix o hb

/-- What the run starts with. -/
theorem link_process_cases (inputs : List PathStr) (suffix : List Char) (output : Option PathStr) (hc : T.isDir H.cwd = true)
    (fs : Files (Option Place)) :
    (process (H.linkWorld T) fs inputs (some suffix) output).1 = [] ∨ ∃ dir, LinkOutputsIn H T output dir := by
  cases output with
  | none => exact .inr ⟨H.cwd, hc, rfl⟩
  | some o =>
    cases hb : (H.linkWorld T).blocked o with
    | true => exact .inl (by rw [process_blocked (H.linkWorld T) fs inputs suffix o hb])
    | false =>
      cases hf : (H.linkWorld T).folder o with
      | none =>
        exact .inl (by rw [process_missing (H.linkWorld T) fs inputs suffix o hb hf])
      | some f =>
        right
        have hb' : (match T.find H.cwd (parsePath o) with | .ok l => !T.isDir l && T.occupied l | .error _ => false) = false := hb
        have hf' : (match T.find H.cwd (parsePath o) with | .ok l => if T.occupied l then some (absolute l) else none | .error _ => none) =
          some f := hf
        cases h : T.find H.cwd (parsePath o) with
        | error e =>
          rw [h] at hf'
          cases hf'
        | ok l =>
          rw [h] at hf' hb'
          have ho : T.occupied l = true := by
            by_contra ho
            rw [Bool.not_eq_true] at ho
            simp [ho] at hf'
          refine ⟨l, ?_, h⟩
          simpa [ho] using hb'

/-- C101: at whatever point a run is interrupted, the tree with its links is well formed, no folder and no link has changed, and a changed file
is where the output of one of the inputs leads, links followed. -/
theorem links_safe (hT : T.Sound) (hc : T.isDir H.cwd = true) (inputs : List PathStr) (suffix : List Char) (output : Option PathStr)
    (es : List (Event (H.linkWorld T))) (hes : es <+: (process (H.linkWorld T) T.files inputs (some suffix) output).1) :
    (T.holding ((H.linkWorld T).after T.files es)).Sound ∧
    ∀ l, (H.linkWorld T).after T.files es (some l) ≠ T.content l → ∃ dir, LinkOutputsIn H T output dir ∧
      ∃ i ∈ inputs, ∃ stem ext, NamedAs i stem ext ∧
        T.find H.cwd (parsePath (OutName stem ext suffix (output.map fun _ => absolute dir))) = .ok l := by
  rcases link_process_cases H T inputs suffix output hc T.files with hnil | ⟨dir, h1⟩
  · rw [hnil] at hes
    rw [List.prefix_nil.mp hes]
    exact ⟨hT, fun l hl => absurd rfl hl⟩
  rw [link_process H T inputs suffix output dir h1] at hes
  have hev : ∀ e ∈ es, ∃ l, e.1 = some l ∧ T.link l = none ∧ FilePlace T.isDir l ∧ ∃ i ∈ inputs, ∃ stem ext, NamedAs i stem ext ∧
      T.find H.cwd (parsePath (OutName stem ext suffix (output.map fun _ => absolute dir))) = .ok l := by
    intro e he
    obtain ⟨hcr, i, hi, stem, ext, hn, hloc⟩ :=
      processInputs_creatable (H.linkWorld T) suffix (output.map fun _ => absolute dir) inputs T.files e (hes.subset he)
    cases hel : e.1 with
    | none =>
      rw [hel] at hcr
      cases hcr
    | some l =>
      rw [hel] at hcr hloc
      have hcr' : (!T.isDir l && H.allowed l) = true := hcr
      rw [Bool.and_eq_true, Bool.not_eq_true'] at hcr'
      have hfind := (toOption_eq_some _ _).mp hloc.symm
      obtain ⟨p1, p2⟩ := find_place hT H.cwd hc _ l hfind
      refine ⟨l, rfl, p1, p2.resolve_left ?_, i, hi, stem, ext, hn, hfind⟩
      rw [hcr'.1]
      exact fun h => (by cases h)
  have hchanged : ∀ l, (H.linkWorld T).after T.files es (some l) ≠ T.content l → ∃ e ∈ es, e.1 = some l := by
    intro l hl
    by_contra hno
    push Not at hno
    exact hl (after_untouched (H.linkWorld T) T.files es (some l) hno)
  constructor
  · have hnew : ∀ l, (H.linkWorld T).after T.files es (some l) ≠ none → T.content l ≠ none ∨ (T.link l = none ∧ FilePlace T.isDir l) := by
      intro l hl
      by_cases hsame : (H.linkWorld T).after T.files es (some l) = T.content l
      · exact .inl (by rw [← hsame]; exact hl)
      · obtain ⟨e, he, hel⟩ := hchanged l hsame
        obtain ⟨l', g1, g2, g3, -⟩ := hev e he
        rw [hel] at g1
        cases g1
        exact .inr ⟨g2, g3⟩
    refine ⟨⟨hT.tree.root, fun l n h => ?_, fun l hd => ?_⟩, hT.inside, hT.root, fun l hl => ⟨(hT.apart l hl).1, ?_⟩⟩
    · rcases h with h | h
      · exact hT.tree.inside l n (.inl h)
      · rcases hnew _ h with h | ⟨-, -, up, name, he, g2, g3⟩
        · exact hT.tree.inside l n (.inr h)
        · obtain ⟨rfl, e2⟩ := List.append_inj' he rfl
          cases e2
          exact ⟨g2, g3⟩
    · by_contra hno
      rcases hnew _ hno with h | ⟨-, g1, -⟩
      · exact h (hT.tree.apart l hd)
      · rw [show T.isDir l = true from hd] at g1
        cases g1
    · by_contra hno
      rcases hnew _ hno with h | ⟨g1, -⟩
      · exact h (hT.apart l hl).2
      · exact hl g1
  · intro l hl
    obtain ⟨e, he, hel⟩ := hchanged l hl
    obtain ⟨l', g1, -, -, g4⟩ := hev e he
    rw [hel] at g1
    cases g1
    exact ⟨dir, h1, g4⟩

/-- C101: if the suffix has no slash and no output has the name of a link in the output folder, then only outputs directly in the folder
where the `-o` path leads have changed. -/
theorem links_outputs_in_folder (hT : T.Sound) (hc : T.isDir H.cwd = true) (inputs : List PathStr) (suffix : List Char) (hs : '/' ∉ suffix)
    (output : Option PathStr) (hno : ∀ dir, LinkOutputsIn H T output dir → NoLinkAt T dir inputs suffix)
    (es : List (Event (H.linkWorld T))) (hes : es <+: (process (H.linkWorld T) T.files inputs (some suffix) output).1) (l : Place)
    (hl : (H.linkWorld T).after T.files es (some l) ≠ T.content l) : ∃ dir, LinkOutputsIn H T output dir ∧
      ∃ i ∈ inputs, ∃ stem ext, NamedAs i stem ext ∧ l = dir ++ [stem ++ '-' :: suffix ++ '.' :: ext] := by
  obtain ⟨dir, h1, i, hi, stem, ext, hn, hf⟩ := (links_safe H T hT hc inputs suffix output es hes).2 l hl
  refine ⟨dir, h1, i, hi, stem, ext, hn, ?_⟩
  have := link_output_there H T hT output dir h1 i stem ext suffix hs hn (hno dir h1 i hi stem ext hn)
  have e := (toOption_eq_some _ _).mp this
  rw [hf] at e
  cases e
  rfl

/-- An input on a tree with links that can be marked, its output not the name of a link. -/
structure LinkCanMark (suffix : List Char) (output : Option PathStr) (dir : Place) (input : PathStr) (stem ext : List Char)
    (place : Place) (final : List UInt8) : Prop where
  named : NamedAs input stem ext
  found : T.find H.cwd (parsePath input) = .ok place
  marks : ∃ content image marked format contents, T.content place = some content ∧ H.decode input content = some image ∧
    watermark H.deps image (FloatOps.ofInt 100) (FloatOps.ofInt 1) 11 = .ok marked ∧
    H.formatOf (OutName stem ext suffix (output.map fun _ => absolute dir)) = some format ∧
    H.encode format marked = (contents ++ [final], true)
  free : T.isDir (dir ++ [stem ++ '-' :: suffix ++ '.' :: ext]) = false
  plain : T.link (dir ++ [stem ++ '-' :: suffix ++ '.' :: ext]) = none
  allowed : H.allowed (dir ++ [stem ++ '-' :: suffix ++ '.' :: ext]) = true

/-- C101: a batch on a tree with links: inputs and output folder may be reached through links, and inputs may be links; if they are called
differently, no output has the name of a link, and none is the file an input leads to, the run ends without an error, each output, called
after its input, holds the bytes of the marked picture, and all other files are as before. -/
theorem link_batch (hT : T.Sound) (suffix : List Char) (hs : '/' ∉ suffix) (output : Option PathStr) (dir : Place)
    (hdir : LinkOutputsIn H T output dir) (jobs : List (PathStr × List Char × List Char × Place × List UInt8))
    (hjobs : ∀ j ∈ jobs, LinkCanMark H T suffix output dir j.1 j.2.1 j.2.2.1 j.2.2.2.1 j.2.2.2.2)
    (hnames : (jobs.map fun j => (j.2.1, j.2.2.1)).Nodup)
    (hin : ∀ j ∈ jobs, ∀ k ∈ jobs, k.2.2.2.1 ≠ dir ++ [j.2.1 ++ '-' :: suffix ++ '.' :: j.2.2.1]) :
    let run := process (H.linkWorld T) T.files (jobs.map Prod.fst) (some suffix) output
    run.2 = none ∧
      (∀ j ∈ jobs, (H.linkWorld T).after T.files run.1 (some (dir ++ [j.2.1 ++ '-' :: suffix ++ '.' :: j.2.2.1])) = some j.2.2.2.2) ∧
      ∀ l, (∀ j ∈ jobs, l ≠ dir ++ [j.2.1 ++ '-' :: suffix ++ '.' :: j.2.2.1]) → (H.linkWorld T).after T.files run.1 (some l) = T.content l := by
  intro run
  have hrun : run = processInputs (H.linkWorld T) suffix (output.map fun _ => absolute dir) T.files (jobs.map Prod.fst) :=
    link_process H T _ suffix output dir hdir T.files
  rw [hrun]
  let outOf : PathStr × List Char × List Char × Place × List UInt8 → Option Place × List UInt8 :=
    fun j => (some (dir ++ [j.2.1 ++ '-' :: suffix ++ '.' :: j.2.2.1]), j.2.2.2.2)
  have hclean : CleanBatch (H.linkWorld T) suffix (output.map fun _ => absolute dir) T.files (jobs.map Prod.fst) (jobs.map outOf) := by
    refine ⟨?_, ?_, ?_⟩
    · rw [List.forall₂_map_left_iff, List.forall₂_map_right_iff]
      rw [List.forall₂_same]
      intro j hj
      obtain ⟨a1, a2, ⟨content, image, marked, format, contents, b1, b2, b3, b4, b5⟩, a4, a5, a6⟩ := hjobs j hj
      refine ⟨content, ?_, image, marked, j.2.1, j.2.2.1, format, contents, b2, b3, a1,
        (link_output_there H T hT output dir hdir j.1 j.2.1 j.2.2.1 suffix hs a1 a5).symm, ?_, b4, b5⟩
      · have : (H.linkWorld T).resolve j.1 = some j.2.2.2.1 := (toOption_eq_some _ _).mpr a2
        rw [this]
        exact b1
      · show (!T.isDir _ && H.allowed _) = true
        rw [a4, a6]
        rfl
    · rw [List.map_map]
      have hinj := (List.nodup_map_iff_inj_on (List.Nodup.of_map _ hnames)).mp hnames
      refine (List.nodup_map_iff_inj_on (List.Nodup.of_map _ hnames)).mpr fun j hj k hk he => ?_
      refine hinj j hj k hk ?_
      have he' : dir ++ [j.2.1 ++ '-' :: suffix ++ '.' :: j.2.2.1] = dir ++ [k.2.1 ++ '-' :: suffix ++ '.' :: k.2.2.1] :=
        Option.some.inj he
      have := List.append_cancel_left he'
      obtain ⟨e1, e2⟩ := outName_injective _ _ _ _ suffix (hjobs j hj).named.2.1 (hjobs k hk).named.2.1 (by simpa using this)
      rw [e1, e2]
    · intro r hr i hi heq
      obtain ⟨j, hj, rfl⟩ := List.mem_map.mp hr
      obtain ⟨k, hk, rfl⟩ := List.mem_map.mp hi
      have : (H.linkWorld T).resolve k.1 = some k.2.2.2.1 := (toOption_eq_some _ _).mpr (hjobs k hk).found
      rw [this] at heq
      exact hin j hj k hk (Option.some.inj heq).symm
  obtain ⟨b1, b2, b3⟩ := batch_completes (H.linkWorld T) suffix _ T.files _ _ hclean
  refine ⟨b1, fun j hj => b2 (outOf j) (List.mem_map_of_mem hj), fun l hl => b3 (some l) ?_⟩
  intro hmem
  obtain ⟨r, hr, e⟩ := List.mem_map.mp hmem
  obtain ⟨j, hj, rfl⟩ := List.mem_map.mp hr
  exact hl j hj (Option.some.inj e).symm

/-- C101, what can go wrong: if the output of an input has the name of a link in the output folder, and the link leads to a file (the input
itself, or any other), a run that marks the input ends without an error, and that file holds the marked picture; there is no file with
the output's name. -/
theorem link_replaces (hT : T.Sound) (input stem ext suffix : List Char) (hs : '/' ∉ suffix) (output : Option PathStr) (dir : Place)
    (hdir : LinkOutputsIn H T output dir) (hn : NamedAs input stem ext) (text : PathStr)
    (hl : T.link (dir ++ [stem ++ '-' :: suffix ++ '.' :: ext]) = some text) (k : Nat) (hk : k ≤ 39) (l : Place)
    (hto : LeadsTo T k (if (parsePath text).abs then [] else dir) (parsePath text).parts l) (place : Place) (content final : List UInt8)
    (hfound : T.find H.cwd (parsePath input) = .ok place) (hcontent : T.content place = some content)
    (hmark : MarksTo (H.linkWorld T) suffix (output.map fun _ => absolute dir) input content (some l) final) :
    let run := process (H.linkWorld T) T.files [input] (some suffix) output
    run.2 = none ∧ (H.linkWorld T).after T.files run.1 (some l) = some final ∧
      (H.linkWorld T).after T.files run.1 (some (dir ++ [stem ++ '-' :: suffix ++ '.' :: ext])) = none := by
  intro run
  have hrun : run = processInputs (H.linkWorld T) suffix (output.map fun _ => absolute dir) T.files [input] :=
    link_process H T _ suffix output dir hdir T.files
  have hres : (H.linkWorld T).resolve input = some place := (toOption_eq_some _ _).mpr hfound
  have hplace : T.link l = none := by
    refine (follow_place hT 39 _ ?_ _ (parse_parts text) l ((follow_iff T 39 _ _ l).mpr ⟨k, hk, hto⟩)).1
    split_ifs
    · exact hT.tree.root
    · exact hdir.1
  obtain ⟨es, he, hes⟩ := processInput_marks (H.linkWorld T) T.files suffix _ input content (some l) final (by rw [hres]; exact hcontent) hmark
  have hrun' : run = (es ++ [(some l, final)], none) := by
    rw [hrun]
    exact processInputs_one (H.linkWorld T) T.files suffix _ input _ he
  rw [hrun']
  refine ⟨rfl, ?_, ?_⟩
  · show (H.linkWorld T).after T.files (es ++ [(some l, final)]) (some l) = _
    unfold World.after
    rw [List.foldl_append]
    exact step_at (H.linkWorld T) _ _ _
  · have hne : T.content (dir ++ [stem ++ '-' :: suffix ++ '.' :: ext]) = none := (hT.apart _ (by rw [hl]; exact fun h => (by cases h))).2
    refine Eq.trans (after_untouched (H.linkWorld T) T.files (es ++ [(some l, final)]) _ ?_) hne
    intro e hmem heq
    have : e.1 = some l := by
      rcases List.mem_append.mp hmem with hmem | hmem
      · exact hes e hmem
      · rw [List.mem_singleton.mp hmem]
    rw [this] at heq
    have e2 := Option.some.inj heq
    rw [← e2, hplace] at hl
    cases hl

end
end Sia
