import Verif.Props.HardRunProps

/-! Concrete cases for C105. -/
namespace Sia

/-- `-o in/new`: exactly `/home/in/new` is made. -/
theorem toyHard_makes : toyHost.linkCreateDirAll toyHard.toLinkDisk (parsePath "in/new".toList) =
    ([["home".toList, "in".toList, "new".toList]], none) := by
  have hp : parsePath "in/new".toList = ⟨false, ["in".toList] ++ ["new".toList]⟩ := by decide
  have h1 : toyHard.find toyHost.cwd (parsePath "in".toList) = .ok ["home".toList, "in".toList] := toyHard_in.2
  have hp1 : parsePath "in".toList = ⟨false, ["in".toList]⟩ := by decide
  rw [hp1] at h1
  rw [hp]
  exact link_folders_exactly toyHost toyHard.toLinkDisk toyHard_sound.tree false ["in".toList] ["new".toList] (by decide) (by decide)
    ["home".toList, "in".toList] h1 (by decide) (by decide) (by decide) (fun _ _ _ => rfl)

theorem toyHard_ready (ls : List Place) (hls : ls = [["home".toList, "in".toList, "new".toList]]) :
    LinkOutputsIn toyHost (toyHard.toLinkDisk.addDirs ls) (some "in/new".toList) ["home".toList, "in".toList, "new".toList] ∧
    (toyHard.toLinkDisk.addDirs ls).find toyHost.cwd (parsePath "in/a.png".toList) = .ok ["home".toList, "in".toList, "a.png".toList] ∧
    (toyHard.toLinkDisk.addDirs ls).isDir (["home".toList, "in".toList, "new".toList] ++ ["a".toList ++ '-' :: "wm".toList ++ '.' :: "png".toList]) =
      false ∧
    (toyHard.toLinkDisk.addDirs ls).content ["home".toList, "in".toList, "a.png".toList] = some [7] := by
  subst hls
  refine ⟨⟨by decide, ?_⟩, ?_, by decide, by decide⟩
  · have hp : parsePath "in/new".toList = ⟨false, ["in".toList, "new".toList]⟩ := by decide
    show (toyHard.toLinkDisk.addDirs _).find toyHost.cwd (parsePath "in/new".toList) = _
    rw [hp]
    exact (follow_iff _ 40 _ _ _).mpr ⟨0, by decide, .step (by decide) (by decide) (.step (by decide) (by decide) (.here _))⟩
  · have hp : parsePath "in/a.png".toList = ⟨false, ["in".toList, "a.png".toList]⟩ := by decide
    rw [hp]
    exact (follow_iff _ 40 _ _ _).mpr ⟨0, by decide, .step (by decide) (by decide) (.step (by decide) (by decide) (.here _))⟩

/-- From the general statement to the files looked at. -/
theorem toyHard_run_facts (read : Place → Option (List UInt8)) (made : List Place) (p : Option Panic) (v : UInt8)
    (hb : p = none ∧ made = [["home".toList, "in".toList, "new".toList]] ∧
      (∀ j ∈ [("in/a.png".toList, "a".toList, "png".toList, (["home".toList, "in".toList, "a.png".toList] : Place), ([1, v] : List UInt8))],
        read (outPlace ["home".toList, "in".toList, "new".toList] "wm".toList j.2.1 j.2.2.1) = some j.2.2.2.2) ∧
      ∀ l, toyHard.content l ≠ none → read l = toyHard.content l) :
    p = none ∧ made = [["home".toList, "in".toList, "new".toList]] ∧
      read ["home".toList, "in".toList, "new".toList, "a-wm.png".toList] = some [1, v] ∧
      read ["home".toList, "in".toList, "a-wm.png".toList] = some [8] ∧ read ["home".toList, "backup".toList, "a-wm.png".toList] = some [8] ∧
      read ["home".toList, "in".toList, "a-x.png".toList] = some [7] := by
  obtain ⟨b1, b0, b2, b3⟩ := hb
  exact ⟨b1, b0, b2 _ List.mem_cons_self, (b3 _ (by decide)).trans (by decide), (b3 _ (by decide)).trans (by decide),
    (b3 _ (by decide)).trans (by decide)⟩

/-- C105 on the tree: `in/a.png -s wm -o in/new` makes `/home/in/new` and a new file there; the outputs of the earlier run, the backup and the
other name of the picture read as before. -/
theorem toyHard_run : ∃ v,
    let run := toyHost.hardProcess toyHard ["in/a.png".toList] (some "wm".toList) (some "in/new".toList)
    let read := toyHard.read ((toyHost.hardWorld (toyHard.addDirs run.1)).after toyHard.files run.2.1)
    run.2.2 = none ∧ run.1 = [["home".toList, "in".toList, "new".toList]] ∧
      read ["home".toList, "in".toList, "new".toList, "a-wm.png".toList] = some [1, v] ∧
      read ["home".toList, "in".toList, "a-wm.png".toList] = some [8] ∧ read ["home".toList, "backup".toList, "a-wm.png".toList] = some [8] ∧
      read ["home".toList, "in".toList, "a-x.png".toList] = some [7] := by
  obtain ⟨out, hout⟩ := testImage_marks
  refine ⟨(out.pixel 0 0).r, ?_⟩
  have hmade := toyHard_makes
  have h2 : (toyHost.linkCreateDirAll toyHard.toLinkDisk (parsePath "in/new".toList)).2 = none := by rw [hmade]
  have h1 : (toyHost.linkCreateDirAll toyHard.toLinkDisk (parsePath "in/new".toList)).1 = [["home".toList, "in".toList, "new".toList]] := by
    rw [hmade]
  obtain ⟨r1, r2, r3, r4⟩ := toyHard_ready _ h1
  have hmark : LinkCanMark toyHost (toyHard.toLinkDisk.addDirs (toyHost.linkCreateDirAll toyHard.toLinkDisk (parsePath "in/new".toList)).1)
      "wm".toList (some "in/new".toList) ["home".toList, "in".toList, "new".toList] "in/a.png".toList "a".toList "png".toList
      ["home".toList, "in".toList, "a.png".toList] [1, (out.pixel 0 0).r] :=
    ⟨⟨by decide, by decide, by decide⟩, r2, ⟨[7], testImage, out, 0, [[1]], r4, rfl, hout, rfl, rfl⟩, r3, rfl, rfl⟩
  obtain ⟨b1, b2, b3, b4⟩ := hard_run_new toyHost toyHard_sound "wm".toList (by decide) "in/new".toList (by decide) h2 _ r1
    [("in/a.png".toList, "a".toList, "png".toList, ["home".toList, "in".toList, "a.png".toList], [1, (out.pixel 0 0).r])]
    (by intro j hj; cases List.mem_singleton.mp hj; exact hmark)
    (by
      intro j hj
      cases List.mem_singleton.mp hj
      show toyHard.content (outPlace ["home".toList, "in".toList, "new".toList] "wm".toList "a".toList "png".toList) = none
      decide)
    (by show [("a".toList, "png".toList)].Nodup; decide)
  rw [h1] at b2
  exact toyHard_run_facts _ _ _ _ ⟨b1, b2, b3, b4⟩

end Sia
