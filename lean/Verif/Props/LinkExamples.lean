import Verif.Props.LinkSafetyProps
import Verif.Props.TreeExamples

/-! Concrete cases for C101, and links that lead nowhere. -/
namespace Sia

section
variable {T : LinkDisk}

theorem LinkDisk.Sound.above (hT : T.Sound) (a b : Place) (h : T.isDir (a ++ b) = true) : T.isDir a = true := by
  induction b using List.reverseRecOn with
  | nil => simpa using h
  | append_singleton b n ih =>
    rw [← List.append_assoc] at h
    exact ih (hT.tree.inside _ _ (Or.inl h)).1

/-- On the way down to a link: whoever gets past it has followed it. -/
theorem leads_down (hT : T.Sound) (up : Place) (name : List Char) (text : PathStr) (hl : T.link (up ++ [name]) = some text)
    (names : List (List Char)) (cur : Place) (hc : cur ++ names = up ++ [name]) (hne : names ≠ []) (hp : ∀ n ∈ names, ProperName n) (k : Nat)
    (l : Place) (h : LeadsTo T k cur names l) :
    ∃ k', k = k' + 1 ∧ LeadsTo T k' (if (parsePath text).abs then [] else up) (parsePath text).parts l := by
  induction names generalizing cur k with
  | nil => exact absurd rfl hne
  | cons n names ih =>
    have hon : onward cur n = cur ++ [n] := by
      obtain ⟨p1, p2, p3, p4⟩ := hp n List.mem_cons_self
      unfold onward
      rw [if_neg (by rintro (h | h); exacts [p1 h, p3 h]), if_neg p4]
    cases names with
    | nil =>
      have hcur : cur = up := (List.append_inj' hc rfl).1
      rw [hc] at hon
      cases h with
      | step _ h2 _ =>
        rw [hon, hl] at h2
        cases h2
      | jump _ h2 h3 =>
        rw [hon, hl] at h2
        cases h2
        rw [List.append_nil, hcur] at h3
        exact ⟨_, rfl, h3⟩
    | cons m names =>
      have hdir : T.isDir (onward cur n) = true := by
        have hup : T.isDir up = true := (hT.inside up name (by rw [hl]; exact fun h => (by cases h))).1
        rw [hon]
        obtain ⟨init, last, he⟩ : ∃ init last, m :: names = init ++ [last] :=
          ⟨_, _, (List.dropLast_append_getLast (List.cons_ne_nil m names)).symm⟩
        rw [he] at hc
        have : (cur ++ n :: init) ++ [last] = up ++ [name] := by simpa using hc
        have hu : cur ++ n :: init = up := (List.append_inj' this rfl).1
        refine hT.above (cur ++ [n]) init ?_
        rw [List.append_assoc]
        rw [← hu] at hup
        exact hup
      have hlink := hT.dir_no_link _ hdir
      cases h with
      | step _ _ h3 =>
        refine ih (onward cur n) ?_ (List.cons_ne_nil _ _) (fun x hx => hp x (List.mem_cons_of_mem _ hx)) k h3
        rw [hon]
        simpa using hc
      | jump _ h2 _ =>
        rw [hlink] at h2
        cases h2

/-- The parts of the name of a link from the root are proper. -/
theorem link_names (hT : T.Sound) (up : Place) (name : List Char) (h : T.link (up ++ [name]) ≠ none) : ∀ n ∈ up ++ [name], ProperName n := by
  obtain ⟨hup, hn⟩ := hT.inside up name h
  have key : ∀ l : Place, T.isDir l = true → ∀ n ∈ l, ProperName n := by
    intro l
    induction l using List.reverseRecOn with
    | nil => intro _ n hn; cases hn
    | append_singleton l m ih =>
      intro hd n hn
      obtain ⟨a, b⟩ := hT.tree.inside l m (Or.inl hd)
      rcases List.mem_append.mp hn with hn | hn
      · exact ih a n hn
      · rw [List.mem_singleton.mp hn]
        exact b
  intro n hn'
  rcases List.mem_append.mp hn' with hn' | hn'
  · exact key up hup n hn'
  · rw [List.mem_singleton.mp hn']
    exact hn

/-- A link to itself leads nowhere, however many links may be followed. -/
theorem loop_leads_nowhere (hT : T.Sound) (up : Place) (name : List Char) (hl : T.link (up ++ [name]) = some (absolute (up ++ [name]))) (k : Nat)
    (l : Place) : ¬ LeadsTo T k [] (up ++ [name]) l := by
  have hp := link_names hT up name (by rw [hl]; exact fun h => (by cases h))
  have hparse : parsePath (absolute (up ++ [name])) = ⟨true, up ++ [name]⟩ := by
    have hne : up ++ [name] ≠ [] := by simp
    unfold absolute
    rw [if_neg hne]
    obtain ⟨a, b, he⟩ := List.exists_cons_of_ne_nil hne
    rw [he] at hp ⊢
    exact parsePath_flat a b fun m hm => (hp m hm).2.1
  induction k using Nat.strongRecOn with
  | ind k ih =>
    intro h
    obtain ⟨k', rfl, h'⟩ := leads_down hT up name _ hl (up ++ [name]) [] rfl (by simp) hp k l h
    rw [hparse] at h'
    exact ih k' (Nat.lt_succ_self k') h'

/-- An input that is not found ends the run. -/
theorem processInputs_missing {F : Type} [FloatOps F] (W : World F) (fs : Files W.Loc) (s : List Char) (folder : Option PathStr)
    (input : PathStr) (rest : List PathStr) (h : fs (W.resolve input) = none) :
    processInputs W s folder fs (input :: rest) = ([], some .fileError) := by
  have : processInput W fs s folder input = ([], some .fileError) := by
    unfold processInput
    rw [h]
  simp only [processInputs, this]

section
variable {F : Type} [FloatOps F] (H : Host F)

/-- C101: a link to itself is no file: as an input it is an error, as the output folder it is one too; nothing is changed. -/
theorem link_loop (hT : T.Sound) (up : Place) (name : List Char) (hl : T.link (up ++ [name]) = some (absolute (up ++ [name])))
    (suffix : List Char) :
    (∀ (output : Option PathStr) (dir : Place) (rest : List PathStr), LinkOutputsIn H T output dir →
      process (H.linkWorld T) T.files (absolute (up ++ [name]) :: rest) (some suffix) output = ([], some .fileError)) ∧
    ∀ inputs : List PathStr,
      process (H.linkWorld T) T.files inputs (some suffix) (some (absolute (up ++ [name]))) = ([], some .fileError) := by
  have hp := link_names hT up name (by rw [hl]; exact fun h => (by cases h))
  have hne : up ++ [name] ≠ [] := by simp
  have hparse : parsePath (absolute (up ++ [name])) = ⟨true, up ++ [name]⟩ := by
    unfold absolute
    rw [if_neg hne]
    obtain ⟨a, b, he⟩ := List.exists_cons_of_ne_nil hne
    rw [he] at hp ⊢
    exact parsePath_flat a b fun m hm => (hp m hm).2.1
  have hfind : ∀ l, T.find H.cwd (parsePath (absolute (up ++ [name]))) ≠ .ok l := by
    intro l h
    rw [hparse] at h
    unfold LinkDisk.find at h
    have : RawPath.isEmpty ⟨true, up ++ [name]⟩ = false := rfl
    rw [this] at h
    obtain ⟨k, -, hk⟩ := (follow_iff T 40 _ _ l).mp h
    exact loop_leads_nowhere hT up name hl k l hk
  obtain ⟨e, he⟩ : ∃ e, T.find H.cwd (parsePath (absolute (up ++ [name]))) = .error e := by
    cases h : T.find H.cwd (parsePath (absolute (up ++ [name]))) with
    | ok l => exact absurd h (hfind l)
    | error e => exact ⟨e, rfl⟩
  constructor
  · intro output dir rest hdir
    rw [link_process H T _ suffix output dir hdir T.files]
    refine processInputs_missing (H.linkWorld T) T.files suffix _ _ rest ?_
    have : (H.linkWorld T).resolve (absolute (up ++ [name])) = none := by
      show (T.find H.cwd (parsePath (absolute (up ++ [name])))).toOption = none
      rw [he]
      rfl
    rw [this]
    rfl
  · intro inputs
    refine process_missing (H.linkWorld T) T.files inputs suffix _ ?_ ?_
    · show (match T.find H.cwd (parsePath (absolute (up ++ [name]))) with
        | .ok l => !T.isDir l && T.occupied l
        | .error _ => false) = false
      rw [he]
    · show (match T.find H.cwd (parsePath (absolute (up ++ [name]))) with
        | .ok l => if T.occupied l then some (absolute l) else none
        | .error _ => none) = none
      rw [he]

end
end

/-- The tree of `TreeExamples` with links: `/home/shot.png` to `in/a.png`, `/home/results` to `/out`, `/out/a-wm.png` to `../home/in/a.png`,
and `/home/loop` to itself. -/
def toyLinks : LinkDisk where
  toDisk := toyTree
  link l := if l = ["home".toList, "shot.png".toList] then some "in/a.png".toList
    else if l = ["home".toList, "results".toList] then some "/out".toList
    else if l = ["out".toList, "a-wm.png".toList] then some "../home/in/a.png".toList
    else if l = ["home".toList, "loop".toList] then some "/home/loop".toList
    else none

theorem toyLinks_mem (l : Place) (h : toyLinks.link l ≠ none) : l ∈ [["home".toList, "shot.png".toList], ["home".toList, "results".toList],
    ["out".toList, "a-wm.png".toList], ["home".toList, "loop".toList]] := by
  by_contra hc
  simp only [List.mem_cons, List.not_mem_nil, or_false, not_or] at hc
  refine h ?_
  show (if _ then _ else _) = _
  rw [if_neg hc.1, if_neg hc.2.1, if_neg hc.2.2.1, if_neg hc.2.2.2]

theorem toyLinks_sound : toyLinks.Sound where
  tree := toyTree_sound
  root := by decide
  inside l n h := by
    have hl : l = (l ++ [n]).dropLast := by simp
    have hn : n = (l ++ [n]).getLastD [] := by simp
    have key : ∀ m ∈ [["home".toList, "shot.png".toList], ["home".toList, "results".toList], ["out".toList, "a-wm.png".toList],
        ["home".toList, "loop".toList]], toyTree.isDir m.dropLast = true ∧ ProperName (m.getLastD []) := by decide
    obtain ⟨k1, k2⟩ := key _ (toyLinks_mem _ h)
    rw [← hl] at k1
    rw [← hn] at k2
    exact ⟨k1, k2⟩
  apart l h := by
    have key : ∀ m ∈ [["home".toList, "shot.png".toList], ["home".toList, "results".toList], ["out".toList, "a-wm.png".toList],
        ["home".toList, "loop".toList]], toyTree.isDir m = false ∧ toyTree.content m = none := by decide
    exact key l (toyLinks_mem l h)

/-- `shot.png` leads to `/home/in/a.png` by one link. -/
theorem toyLinks_shot : toyLinks.find toyHost.cwd (parsePath "shot.png".toList) = .ok ["home".toList, "in".toList, "a.png".toList] := by
  have hp : parsePath "shot.png".toList = ⟨false, ["shot.png".toList]⟩ := by decide
  have ht : parsePath "in/a.png".toList = ⟨false, ["in".toList, "a.png".toList]⟩ := by decide
  rw [hp]
  refine (follow_iff toyLinks 40 _ _ _).mpr ⟨1, by decide, ?_⟩
  refine .jump (text := "in/a.png".toList) (by decide) (by decide) ?_
  rw [ht]
  exact .step (by decide) (by decide) (.step (by decide) (by decide) (.here _))

/-- `-o results` leads to `/out` by one link. -/
theorem toyLinks_results : LinkOutputsIn toyHost toyLinks (some "results".toList) ["out".toList] := by
  refine ⟨by decide, ?_⟩
  have hp : parsePath "results".toList = ⟨false, ["results".toList]⟩ := by decide
  have ht : parsePath "/out".toList = ⟨true, ["out".toList]⟩ := by decide
  show toyLinks.find toyHost.cwd (parsePath "results".toList) = _
  rw [hp]
  refine (follow_iff toyLinks 40 _ _ _).mpr ⟨1, by decide, ?_⟩
  refine .jump (text := "/out".toList) (by decide) (by decide) ?_
  rw [ht]
  exact .step (by decide) (by decide) (.here _)

/-- From the general statement to the files looked at. -/
theorem toyLinks_batch_facts (after : Option Place → Option (List UInt8)) (p : Option Panic) (v : UInt8) (hb : p = none ∧
      (∀ j ∈ [("shot.png".toList, "shot".toList, "png".toList, (["home".toList, "in".toList, "a.png".toList] : Place), ([1, v] : List UInt8))],
        after (some (["out".toList] ++ [j.2.1 ++ '-' :: "wm".toList ++ '.' :: j.2.2.1])) = some j.2.2.2.2) ∧
      ∀ l, (∀ j ∈ [("shot.png".toList, "shot".toList, "png".toList, (["home".toList, "in".toList, "a.png".toList] : Place), ([1, v] : List UInt8))],
        l ≠ ["out".toList] ++ [j.2.1 ++ '-' :: "wm".toList ++ '.' :: j.2.2.1]) → after (some l) = toyTree.content l) :
    p = none ∧ after (some ["out".toList, "shot-wm.png".toList]) = some [1, v] ∧
      after (some ["home".toList, "in".toList, "a.png".toList]) = some [7] := by
  obtain ⟨b1, b2, b3⟩ := hb
  refine ⟨b1, b2 _ List.mem_cons_self, ?_⟩
  refine (b3 _ fun j hj => ?_).trans (by decide)
  cases List.mem_singleton.mp hj
  show (["home".toList, "in".toList, "a.png".toList] : Place) ≠ ["out".toList] ++ ["shot".toList ++ '-' :: "wm".toList ++ '.' :: "png".toList]
  decide

/-- C101 on the tree: `shot.png -s wm -o results` writes `/out/shot-wm.png` and leaves `/home/in/a.png`. -/
theorem toyLinks_batch : ∃ v,
    let run := process (toyHost.linkWorld toyLinks) toyLinks.files ["shot.png".toList] (some "wm".toList) (some "results".toList)
    run.2 = none ∧ (toyHost.linkWorld toyLinks).after toyLinks.files run.1 (some ["out".toList, "shot-wm.png".toList]) = some [1, v] ∧
      (toyHost.linkWorld toyLinks).after toyLinks.files run.1 (some ["home".toList, "in".toList, "a.png".toList]) = some [7] := by
  obtain ⟨out, hout⟩ := testImage_marks
  refine ⟨(out.pixel 0 0).r, ?_⟩
  have hmark : LinkCanMark toyHost toyLinks "wm".toList (some "results".toList) ["out".toList] "shot.png".toList "shot".toList "png".toList
      ["home".toList, "in".toList, "a.png".toList] [1, (out.pixel 0 0).r] := by
    refine ⟨⟨by decide, by decide, by decide⟩, toyLinks_shot, ⟨[7], testImage, out, 0, [[1]], by decide, rfl, hout, rfl, rfl⟩, by decide,
      by decide, rfl⟩
  have hb := link_batch toyHost toyLinks toyLinks_sound "wm".toList (by decide) (some "results".toList) _ toyLinks_results
    [("shot.png".toList, "shot".toList, "png".toList, ["home".toList, "in".toList, "a.png".toList], [1, (out.pixel 0 0).r])]
    (by intro j hj; cases List.mem_singleton.mp hj; exact hmark)
    (by show [("shot".toList, "png".toList)].Nodup; decide)
    (by
      intro j hj k hk
      cases List.mem_singleton.mp hj
      cases List.mem_singleton.mp hk
      show (["home".toList, "in".toList, "a.png".toList] : Place) ≠
        ["out".toList] ++ ["shot".toList ++ '-' :: "wm".toList ++ '.' :: "png".toList]
      decide)
  exact toyLinks_batch_facts _ _ _ hb

/-- C101, what can go wrong, on the tree: `in/a.png -s wm -o results` ends without an error and overwrites its own input. -/
theorem toyLinks_replaces : ∃ v,
    let run := process (toyHost.linkWorld toyLinks) toyLinks.files ["in/a.png".toList] (some "wm".toList) (some "results".toList)
    toyLinks.files (some ["home".toList, "in".toList, "a.png".toList]) = some [7] ∧ run.2 = none ∧
      (toyHost.linkWorld toyLinks).after toyLinks.files run.1 (some ["home".toList, "in".toList, "a.png".toList]) = some [1, v] := by
  obtain ⟨out, hout⟩ := testImage_marks
  refine ⟨(out.pixel 0 0).r, ?_⟩
  have hin : toyLinks.find toyHost.cwd (parsePath "in/a.png".toList) = .ok ["home".toList, "in".toList, "a.png".toList] := by
    have hp : parsePath "in/a.png".toList = ⟨false, ["in".toList, "a.png".toList]⟩ := by decide
    refine find_plain toyLinks_sound _ _ _ ?_ (by decide)
    rw [hp]
    rfl
  have hl : toyLinks.link (["out".toList] ++ ["a".toList ++ '-' :: "wm".toList ++ '.' :: "png".toList]) = some "../home/in/a.png".toList := by
    decide
  have ht : parsePath "../home/in/a.png".toList = ⟨false, ["..".toList, "home".toList, "in".toList, "a.png".toList]⟩ := by decide
  have hto : LeadsTo toyLinks 0 (if (parsePath "../home/in/a.png".toList).abs then [] else ["out".toList])
      (parsePath "../home/in/a.png".toList).parts ["home".toList, "in".toList, "a.png".toList] := by
    rw [ht]
    exact .step (by decide) (by decide) (.step (by decide) (by decide) (.step (by decide) (by decide) (.step (by decide) (by decide) (.here _))))
  have hn : NamedAs "in/a.png".toList "a".toList "png".toList := ⟨by decide, by decide, by decide⟩
  have hres : (toyHost.linkWorld toyLinks).resolve (OutName "a".toList "png".toList "wm".toList ((some "results".toList).map fun _ => absolute ["out".toList])) =
      some ["home".toList, "in".toList, "a.png".toList] :=
    (link_output_follows toyHost toyLinks toyLinks_sound _ _ toyLinks_results _ _ _ _ (by decide) hn _ hl _).mpr ⟨0, by decide, hto⟩
  obtain ⟨b1, b2, _⟩ := link_replaces toyHost toyLinks toyLinks_sound "in/a.png".toList "a".toList "png".toList "wm".toList (by decide)
    (some "results".toList) _ toyLinks_results hn _ hl 0 (by decide) _ hto _ [7] [1, (out.pixel 0 0).r] hin (by decide)
    ⟨testImage, out, _, _, 0, [[1]], rfl, hout, hn, hres.symm, by decide, rfl, rfl⟩
  exact ⟨by decide, b1, b2⟩

/-- C101 on the tree: `/home/loop` as the input and as the output folder. -/
example : process (toyHost.linkWorld toyLinks) toyLinks.files ["/home/loop".toList, "in/a.png".toList] (some "wm".toList) none =
      ([], some .fileError) ∧
    process (toyHost.linkWorld toyLinks) toyLinks.files ["in/a.png".toList] (some "wm".toList) (some "/home/loop".toList) =
      ([], some .fileError) := by
  have ha : absolute (["home".toList] ++ ["loop".toList]) = "/home/loop".toList := by decide
  obtain ⟨a, b⟩ := link_loop (T := toyLinks) toyHost toyLinks_sound ["home".toList] "loop".toList (by decide) "wm".toList
  rw [ha] at a b
  exact ⟨a none ["home".toList] _ ⟨by decide, rfl⟩, b _⟩

/-- C101: `shot.png -s wm -o results` meets the conditions of the safety statement. -/
example : LinkOutputsIn toyHost toyLinks (some "results".toList) ["out".toList] ∧
    ∀ dir, LinkOutputsIn toyHost toyLinks (some "results".toList) dir → NoLinkAt toyLinks dir ["shot.png".toList] "wm".toList := by
  refine ⟨toyLinks_results, fun dir hdir => ?_⟩
  have h1 : toyLinks.find toyHost.cwd (parsePath "results".toList) = .ok dir := hdir.2
  have h2 : toyLinks.find toyHost.cwd (parsePath "results".toList) = .ok ["out".toList] := toyLinks_results.2
  rw [h1] at h2
  cases Except.ok.inj h2
  intro i hi stem ext hn
  cases List.mem_singleton.mp hi
  have hname : fileName "shot.png".toList = some "shot.png".toList := by decide
  have he : stem ++ '.' :: ext = "shot.png".toList := by
    have := hn.1
    rw [hname] at this
    exact (Option.some.inj this).symm
  by_contra hne
  have key : ∀ m ∈ [["home".toList, "shot.png".toList], ["home".toList, "results".toList], ["out".toList, "a-wm.png".toList],
      ["home".toList, "loop".toList]], m.head? = some "out".toList → m = ["out".toList, "a-wm.png".toList] := by decide
  have hm := key _ (toyLinks_mem _ hne) rfl
  have h3 : stem ++ '-' :: "wm".toList ++ '.' :: ext = "a-wm.png".toList := by
    have := congrArg (fun m : Place => m.getLastD []) hm
    simpa using this
  have l1 := congrArg List.length he
  have l2 := congrArg List.length h3
  simp only [List.length_append, List.length_cons] at l1 l2
  have e1 : "shot.png".toList.length = 8 := by decide
  have e2 : "a-wm.png".toList.length = 8 := by decide
  have e3 : "wm".toList.length = 2 := by decide
  rw [e1] at l1
  rw [e2, e3] at l2
  omega

end Sia
