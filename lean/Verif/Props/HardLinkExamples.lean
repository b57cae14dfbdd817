import Verif.Props.HardLinkProps

/-! Concrete cases for C103. -/
namespace Sia

/-- `/home/in` with the picture `a.png`, its output `a-wm.png` of an earlier run, of which `/home/backup/a-wm.png` is another name, and
`a-x.png`, another name of the picture. -/
def toyHard : HardDisk where
  isDir l := decide (l ∈ [[], ["home".toList], ["home".toList, "in".toList], ["home".toList, "backup".toList]])
  content l := if l ∈ [["home".toList, "in".toList, "a.png".toList], ["home".toList, "in".toList, "a-x.png".toList]] then some [7]
    else if l ∈ [["home".toList, "in".toList, "a-wm.png".toList], ["home".toList, "backup".toList, "a-wm.png".toList]] then some [8] else none
  link _ := none
  same l := if l = ["home".toList, "backup".toList, "a-wm.png".toList] then ["home".toList, "in".toList, "a-wm.png".toList]
    else if l = ["home".toList, "in".toList, "a-x.png".toList] then ["home".toList, "in".toList, "a.png".toList] else l

theorem toyHard_mem (l : Place) (h : toyHard.content l ≠ none) : l ∈ [["home".toList, "in".toList, "a.png".toList],
    ["home".toList, "in".toList, "a-x.png".toList], ["home".toList, "in".toList, "a-wm.png".toList],
    ["home".toList, "backup".toList, "a-wm.png".toList]] := by
  by_contra hc
  have h1 : l ∉ [["home".toList, "in".toList, "a.png".toList], ["home".toList, "in".toList, "a-x.png".toList]] :=
    fun h => hc (List.mem_append_left [["home".toList, "in".toList, "a-wm.png".toList], ["home".toList, "backup".toList, "a-wm.png".toList]] h)
  have h2 : l ∉ [["home".toList, "in".toList, "a-wm.png".toList], ["home".toList, "backup".toList, "a-wm.png".toList]] :=
    fun h => hc (List.mem_append_right [["home".toList, "in".toList, "a.png".toList], ["home".toList, "in".toList, "a-x.png".toList]] h)
  refine h ?_
  show (if _ then _ else _) = _
  rw [if_neg h1, if_neg h2]

theorem toyHard_other (l : Place) (h : l ∉ [["home".toList, "in".toList, "a.png".toList],
    ["home".toList, "in".toList, "a-x.png".toList], ["home".toList, "in".toList, "a-wm.png".toList],
    ["home".toList, "backup".toList, "a-wm.png".toList]]) : toyHard.same l = l := by
  show (if _ then _ else _) = _
  rw [if_neg, if_neg]
  · rintro rfl
    exact h (by decide)
  · rintro rfl
    exact h (by decide)

theorem toyHard_sound : toyHard.Sound where
  tree :=
    { tree :=
        { root := by decide
          inside := by
            intro l n h
            have hl : l = (l ++ [n]).dropLast := by simp
            have hn : n = (l ++ [n]).getLastD [] := by simp
            have key1 : ∀ m ∈ [[], ["home".toList], ["home".toList, "in".toList], ["home".toList, "backup".toList]],
                m = [] ∨ toyHard.isDir m.dropLast = true ∧ ProperName (m.getLastD []) := by decide
            have key2 : ∀ m ∈ [["home".toList, "in".toList, "a.png".toList], ["home".toList, "in".toList, "a-x.png".toList],
                ["home".toList, "in".toList, "a-wm.png".toList], ["home".toList, "backup".toList, "a-wm.png".toList]],
                toyHard.isDir m.dropLast = true ∧ ProperName (m.getLastD []) := by decide
            have key : toyHard.isDir (l ++ [n]).dropLast = true ∧ ProperName ((l ++ [n]).getLastD []) := by
              rcases h with h | h
              · rcases key1 _ (of_decide_eq_true h) with h0 | h0
                · simp at h0
                · exact h0
              · exact key2 _ (toyHard_mem _ h)
            rw [← hl, ← hn] at key
            exact key
          apart := by
            intro l h
            have h' : l ∈ [[], ["home".toList], ["home".toList, "in".toList], ["home".toList, "backup".toList]] := of_decide_eq_true h
            have key : ∀ m ∈ [[], ["home".toList], ["home".toList, "in".toList], ["home".toList, "backup".toList]],
              toyHard.content m = none := by decide
            exact key l h' }
      root := rfl
      inside := fun _ _ h => absurd rfl h
      apart := fun _ h => absurd rfl h }
  alone l h := by
    refine toyHard_other l fun hm => ?_
    have key : ∀ m ∈ [["home".toList, "in".toList, "a.png".toList], ["home".toList, "in".toList, "a-x.png".toList],
        ["home".toList, "in".toList, "a-wm.png".toList], ["home".toList, "backup".toList, "a-wm.png".toList]],
        toyHard.content m ≠ none := by decide
    exact key l hm h
  content l := by
    by_cases hm : l ∈ [["home".toList, "in".toList, "a.png".toList], ["home".toList, "in".toList, "a-x.png".toList],
        ["home".toList, "in".toList, "a-wm.png".toList], ["home".toList, "backup".toList, "a-wm.png".toList]]
    · have key : ∀ m ∈ [["home".toList, "in".toList, "a.png".toList], ["home".toList, "in".toList, "a-x.png".toList],
        ["home".toList, "in".toList, "a-wm.png".toList], ["home".toList, "backup".toList, "a-wm.png".toList]],
        toyHard.content (toyHard.same m) = toyHard.content m := by decide
      exact key l hm
    · rw [toyHard_other l hm]
  again l := by
    by_cases hm : l ∈ [["home".toList, "in".toList, "a.png".toList], ["home".toList, "in".toList, "a-x.png".toList],
        ["home".toList, "in".toList, "a-wm.png".toList], ["home".toList, "backup".toList, "a-wm.png".toList]]
    · have key : ∀ m ∈ [["home".toList, "in".toList, "a.png".toList], ["home".toList, "in".toList, "a-x.png".toList],
        ["home".toList, "in".toList, "a-wm.png".toList], ["home".toList, "backup".toList, "a-wm.png".toList]],
        toyHard.same (toyHard.same m) = toyHard.same m := by decide
      exact key l hm
    · rw [toyHard_other l hm, toyHard_other l hm]

theorem toyHard_in : LinkOutputsIn toyHost toyHard.toLinkDisk (some "in".toList) ["home".toList, "in".toList] := by
  refine ⟨by decide, ?_⟩
  have hp : parsePath "in".toList = ⟨false, ["in".toList]⟩ := by decide
  show toyHard.find toyHost.cwd (parsePath "in".toList) = _
  rw [hp]
  exact (follow_iff _ 40 _ _ _).mpr ⟨0, by decide, .step (by decide) (by decide) (.here _)⟩

theorem toyHard_found : toyHard.find toyHost.cwd (parsePath "in/a.png".toList) = .ok ["home".toList, "in".toList, "a.png".toList] := by
  have hp : parsePath "in/a.png".toList = ⟨false, ["in".toList, "a.png".toList]⟩ := by decide
  rw [hp]
  exact (follow_iff _ 40 _ _ _).mpr ⟨0, by decide, .step (by decide) (by decide) (.step (by decide) (by decide) (.here _))⟩

theorem toyHard_marks (suffix : List Char) (h : suffix = "wm".toList ∨ suffix = "x".toList ∨ suffix = "new".toList) (out : DynamicImage)
    (hout : watermark Deps.toyReal testImage (FloatOps.ofInt 100) (FloatOps.ofInt 1) 11 = .ok out) :
    LinkCanMark toyHost toyHard.toLinkDisk suffix (some "in".toList) ["home".toList, "in".toList] "in/a.png".toList "a".toList "png".toList
      ["home".toList, "in".toList, "a.png".toList] [1, (out.pixel 0 0).r] := by
  refine ⟨⟨by decide, by decide, by decide⟩, toyHard_found, ⟨[7], testImage, out, 0, [[1]], by decide, rfl, hout, rfl, rfl⟩, ?_, rfl, rfl⟩
  rcases h with rfl | rfl | rfl
  · decide
  · decide
  · decide

/-- C103 on the tree: `in/a.png -s wm -o in` writes the output again; the backup reads as the new picture. -/
theorem toyHard_backup : ∃ v,
    let run := process (toyHost.hardWorld toyHard) toyHard.files ["in/a.png".toList] (some "wm".toList) (some "in".toList)
    toyHard.content ["home".toList, "backup".toList, "a-wm.png".toList] = some [8] ∧ run.2 = none ∧
      toyHard.read ((toyHost.hardWorld toyHard).after toyHard.files run.1) ["home".toList, "backup".toList, "a-wm.png".toList] = some [1, v] := by
  obtain ⟨out, hout⟩ := testImage_marks
  refine ⟨(out.pixel 0 0).r, ?_⟩
  obtain ⟨b1, b2⟩ := hard_backup toyHost toyHard toyHard_sound "wm".toList (by decide) (some "in".toList) _ toyHard_in _ _ _ _
    ["home".toList, "backup".toList, "a-wm.png".toList] _ (toyHard_marks _ (Or.inl rfl) out hout) rfl
    (by unfold HardDisk.OneFile; decide) (by unfold HardDisk.OneFile; decide)
  exact ⟨by decide, b1, b2⟩

/-- C103 on the tree: `in/a.png -s x -o in`: the output's name is another name of the input, which is replaced. -/
theorem toyHard_input : ∃ v,
    let run := process (toyHost.hardWorld toyHard) toyHard.files ["in/a.png".toList] (some "x".toList) (some "in".toList)
    toyHard.content ["home".toList, "in".toList, "a.png".toList] = some [7] ∧ run.2 = none ∧
      toyHard.read ((toyHost.hardWorld toyHard).after toyHard.files run.1) ["home".toList, "in".toList, "a.png".toList] = some [1, v] := by
  obtain ⟨out, hout⟩ := testImage_marks
  refine ⟨(out.pixel 0 0).r, ?_⟩
  obtain ⟨b1, b2⟩ := hard_input toyHost toyHard toyHard_sound "x".toList (by decide) (some "in".toList) _ toyHard_in _ _ _ _ _
    (toyHard_marks _ (Or.inr (Or.inl rfl)) out hout) rfl (by unfold HardDisk.OneFile; decide)
  exact ⟨by decide, b1, b2⟩

/-- From the general statement to the files looked at. -/
theorem toyHard_new_facts (read : Place → Option (List UInt8)) (p : Option Panic) (v : UInt8) (hb : p = none ∧
      (∀ j ∈ [("in/a.png".toList, "a".toList, "png".toList, (["home".toList, "in".toList, "a.png".toList] : Place), ([1, v] : List UInt8))],
        read (outPlace ["home".toList, "in".toList] "new".toList j.2.1 j.2.2.1) = some j.2.2.2.2) ∧
      ∀ l, toyHard.content l ≠ none → read l = toyHard.content l) :
    p = none ∧ read ["home".toList, "in".toList, "a-new.png".toList] = some [1, v] ∧
      read ["home".toList, "in".toList, "a.png".toList] = some [7] ∧ read ["home".toList, "in".toList, "a-x.png".toList] = some [7] := by
  obtain ⟨b1, b2, b3⟩ := hb
  exact ⟨b1, b2 _ List.mem_cons_self, (b3 _ (by decide)).trans (by decide), (b3 _ (by decide)).trans (by decide)⟩

/-- C103 on the tree: `in/a.png -s new -o in` makes a new file and changes none. -/
theorem toyHard_new : ∃ v,
    let run := process (toyHost.hardWorld toyHard) toyHard.files ["in/a.png".toList] (some "new".toList) (some "in".toList)
    let read := toyHard.read ((toyHost.hardWorld toyHard).after toyHard.files run.1)
    run.2 = none ∧ read ["home".toList, "in".toList, "a-new.png".toList] = some [1, v] ∧
      read ["home".toList, "in".toList, "a.png".toList] = some [7] ∧ read ["home".toList, "in".toList, "a-x.png".toList] = some [7] := by
  obtain ⟨out, hout⟩ := testImage_marks
  refine ⟨(out.pixel 0 0).r, ?_⟩
  have hb := hard_new toyHost toyHard toyHard_sound "new".toList (by decide) (some "in".toList) _ toyHard_in
    [("in/a.png".toList, "a".toList, "png".toList, ["home".toList, "in".toList, "a.png".toList], [1, (out.pixel 0 0).r])]
    (by intro j hj; cases List.mem_singleton.mp hj; exact toyHard_marks _ (Or.inr (Or.inr rfl)) out hout)
    (by
      intro j hj
      cases List.mem_singleton.mp hj
      show toyHard.content (outPlace ["home".toList, "in".toList] "new".toList "a".toList "png".toList) = none
      decide)
    (by show [("a".toList, "png".toList)].Nodup; decide)
  exact toyHard_new_facts _ _ _ hb

end Sia
