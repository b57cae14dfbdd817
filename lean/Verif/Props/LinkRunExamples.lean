import Verif.Props.LinkRunProps

/-! Concrete cases for C102. -/
namespace Sia

/-- `-o results/new`: `/home/results` is a link to `/out`, so exactly `/out/new` is made. -/
theorem toyLinks_makes : toyHost.linkCreateDirAll toyLinks (parsePath "results/new".toList) = ([["out".toList, "new".toList]], none) := by
  have hp : parsePath "results/new".toList = ⟨false, ["results".toList] ++ ["new".toList]⟩ := by decide
  have h1 : toyLinks.find toyHost.cwd (parsePath "results".toList) = .ok ["out".toList] := toyLinks_results.2
  have hp1 : parsePath "results".toList = ⟨false, ["results".toList]⟩ := by decide
  rw [hp1] at h1
  rw [hp]
  exact link_folders_exactly toyHost toyLinks toyLinks_sound false ["results".toList] ["new".toList] (by decide) (by decide) ["out".toList] h1
    (by decide) (by decide) (by decide) (fun _ _ _ => rfl)

/-- From the general statement to the files looked at. -/
theorem toyLinks_run_facts (after : Option Place → Option (List UInt8)) (made : List Place) (p : Option Panic) (v : UInt8)
    (hb : p = none ∧ made = [["out".toList, "new".toList]] ∧
      (∀ j ∈ [("shot.png".toList, "shot".toList, "png".toList, (["home".toList, "in".toList, "a.png".toList] : Place), ([1, v] : List UInt8))],
        after (some (["out".toList, "new".toList] ++ [j.2.1 ++ '-' :: "wm".toList ++ '.' :: j.2.2.1])) = some j.2.2.2.2) ∧
      ∀ l, (∀ j ∈ [("shot.png".toList, "shot".toList, "png".toList, (["home".toList, "in".toList, "a.png".toList] : Place), ([1, v] : List UInt8))],
        l ≠ ["out".toList, "new".toList] ++ [j.2.1 ++ '-' :: "wm".toList ++ '.' :: j.2.2.1]) → after (some l) = toyLinks.content l) :
    p = none ∧ made = [["out".toList, "new".toList]] ∧ after (some ["out".toList, "new".toList, "shot-wm.png".toList]) = some [1, v] ∧
      after (some ["home".toList, "in".toList, "a.png".toList]) = some [7] := by
  obtain ⟨b1, b2, b3, b4⟩ := hb
  refine ⟨b1, b2, b3 _ List.mem_cons_self, ?_⟩
  refine (b4 _ fun j hj => ?_).trans (by decide)
  cases List.mem_singleton.mp hj
  show (["home".toList, "in".toList, "a.png".toList] : Place) ≠
    ["out".toList, "new".toList] ++ ["shot".toList ++ '-' :: "wm".toList ++ '.' :: "png".toList]
  decide

theorem toyLinks_ready (ls : List Place) (hls : ls = [["out".toList, "new".toList]]) :
    LinkOutputsIn toyHost (toyLinks.addDirs ls) (some "results/new".toList) ["out".toList, "new".toList] ∧
    (toyLinks.addDirs ls).find toyHost.cwd (parsePath "shot.png".toList) = .ok ["home".toList, "in".toList, "a.png".toList] ∧
    (toyLinks.addDirs ls).isDir (["out".toList, "new".toList] ++ ["shot".toList ++ '-' :: "wm".toList ++ '.' :: "png".toList]) = false ∧
    (toyLinks.addDirs ls).link (["out".toList, "new".toList] ++ ["shot".toList ++ '-' :: "wm".toList ++ '.' :: "png".toList]) = none ∧
    (toyLinks.addDirs ls).content ["home".toList, "in".toList, "a.png".toList] = some [7] := by
  subst hls
  refine ⟨⟨by decide, ?_⟩, ?_, by decide, by decide, by decide⟩
  · have hp : parsePath "results/new".toList = ⟨false, ["results".toList, "new".toList]⟩ := by decide
    have ht : parsePath "/out".toList = ⟨true, ["out".toList]⟩ := by decide
    show (toyLinks.addDirs _).find toyHost.cwd (parsePath "results/new".toList) = _
    rw [hp]
    refine (follow_iff _ 40 _ _ _).mpr ⟨1, by decide, ?_⟩
    refine .jump (text := "/out".toList) (by decide) (by decide) ?_
    rw [ht]
    exact .step (by decide) (by decide) (.step (by decide) (by decide) (.here _))
  · have h := toyLinks_shot
    have hp : parsePath "shot.png".toList = ⟨false, ["shot.png".toList]⟩ := by decide
    rw [hp] at h ⊢
    have h' : toyLinks.follow 40 toyHost.cwd ["shot.png".toList] = .ok ["home".toList, "in".toList, "a.png".toList] := h
    exact follow_grows (T' := toyLinks.addDirs [["out".toList, "new".toList]])
      (fun m hm => (linkAddDirs_isDir toyLinks _ m).mpr (Or.inl hm)) rfl h'

/-- C102 on the tree: `shot.png -s wm -o results/new` makes `/out/new` and writes `/out/new/shot-wm.png`. -/
theorem toyLinks_run : ∃ v,
    let run := toyHost.linkProcess toyLinks ["shot.png".toList] (some "wm".toList) (some "results/new".toList)
    run.2.2 = none ∧ run.1 = [["out".toList, "new".toList]] ∧
      (toyHost.linkWorld (toyLinks.addDirs run.1)).after toyLinks.files run.2.1 (some ["out".toList, "new".toList, "shot-wm.png".toList]) =
        some [1, v] ∧
      (toyHost.linkWorld (toyLinks.addDirs run.1)).after toyLinks.files run.2.1 (some ["home".toList, "in".toList, "a.png".toList]) =
        some [7] := by
  obtain ⟨out, hout⟩ := testImage_marks
  refine ⟨(out.pixel 0 0).r, ?_⟩
  have hmade := toyLinks_makes
  have h2 : (toyHost.linkCreateDirAll toyLinks (parsePath "results/new".toList)).2 = none := by rw [hmade]
  have h1 : (toyHost.linkCreateDirAll toyLinks (parsePath "results/new".toList)).1 = [["out".toList, "new".toList]] := by rw [hmade]
  obtain ⟨r1, r2, r3, r4, r5⟩ := toyLinks_ready _ h1
  have hmark : LinkCanMark toyHost (toyLinks.addDirs (toyHost.linkCreateDirAll toyLinks (parsePath "results/new".toList)).1) "wm".toList
      (some "results/new".toList) ["out".toList, "new".toList] "shot.png".toList "shot".toList "png".toList
      ["home".toList, "in".toList, "a.png".toList] [1, (out.pixel 0 0).r] :=
    ⟨⟨by decide, by decide, by decide⟩, r2, ⟨[7], testImage, out, 0, [[1]], r5, rfl, hout, rfl, rfl⟩, r3, r4, rfl⟩
  obtain ⟨b1, b2, b3⟩ := link_run_batch toyHost toyLinks_sound "wm".toList (by decide) "results/new".toList (by decide) h2 _ r1
    [("shot.png".toList, "shot".toList, "png".toList, ["home".toList, "in".toList, "a.png".toList], [1, (out.pixel 0 0).r])]
    (by intro j hj; cases List.mem_singleton.mp hj; exact hmark)
    (by show [("shot".toList, "png".toList)].Nodup; decide)
    (by
      intro j hj k hk
      cases List.mem_singleton.mp hj
      cases List.mem_singleton.mp hk
      show (["home".toList, "in".toList, "a.png".toList] : Place) ≠
        ["out".toList, "new".toList] ++ ["shot".toList ++ '-' :: "wm".toList ++ '.' :: "png".toList]
      decide)
  rw [h1] at b2
  exact toyLinks_run_facts _ _ _ _ ⟨b1, b2, b3⟩

/-- C102 on the tree: `-o loop/x/y` is an error and nothing is made. -/
example : ∃ e, toyHost.linkCreateDirAll toyLinks ⟨false, [] ++ ["loop".toList] ++ ["x".toList, "y".toList]⟩ = ([], some e) := by
  refine link_in_the_way toyHost toyLinks toyLinks_sound false [] "loop".toList ["x".toList, "y".toList] (by decide) ["home".toList] ?_
    (by decide) ?_
  · rw [LinkDisk.follow]
    rfl
  · rw [Bool.eq_false_iff]
    intro h
    obtain ⟨k, -, l, h, -⟩ := (dirAt_iff toyLinks toyHost.cwd false _ (by decide)).mp h
    have ht : parsePath "/home/loop".toList = ⟨true, ["home".toList, "loop".toList]⟩ := by decide
    obtain ⟨k', -, h'⟩ := leads_down toyLinks_sound ["home".toList] "loop".toList "/home/loop".toList (by decide) ["loop".toList]
      ["home".toList] rfl (by decide) (by decide) k l h
    rw [ht] at h'
    exact loop_leads_nowhere toyLinks_sound ["home".toList] "loop".toList (by decide) k' l h'

end Sia
