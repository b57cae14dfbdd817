import Verif.Props.TreeSafetyProps
import Verif.Props.CliExamples

/-! Concrete cases for C95 and C96, and the remaining ends of a run on a tree. -/
namespace Sia

section
variable {F : Type} [FloatOps F] (H : Host F)

/-- C95: an output folder that is a file ends the run with exit status 1, nothing changed. -/
theorem output_is_file (D : Disk) (hD : D.Sound) (inputs : List PathStr) (suffix : List Char) (o : PathStr) (l : Place)
    (h : D.find H.cwd (parsePath o) = .ok l) (hl : D.content l ≠ none) :
    H.process D inputs (some suffix) (some o) = ([], some .exitOne) := by
  have h1 : D.isDir l = false := by
    rw [Bool.eq_false_iff]
    exact fun hd => hl (hD.apart l hd)
  obtain ⟨c, hc⟩ := Option.ne_none_iff_exists'.mp hl
  unfold Host.process
  have : (!D.dirAt H.cwd (parsePath o) && D.existsAt H.cwd (parsePath o)) = true := by
    unfold Disk.dirAt Disk.existsAt Disk.occupied
    rw [h]
    simp [h1, hc]
  dsimp only
  rw [this, if_pos rfl]

/-- C95: with an empty `-o` the run fails and changes nothing. -/
theorem output_is_empty (D : Disk) (inputs : List PathStr) (hi : inputs ≠ []) (suffix : List Char) :
    ∃ p, H.process D inputs (some suffix) (some []) = ([], some p) := by
  have hfind : ∀ D : Disk, D.find H.cwd (parsePath []) = .error .notFound := fun D => rfl
  have h1 : D.dirAt H.cwd (parsePath []) = false := by
    unfold Disk.dirAt
    rw [hfind]
  have h2 : D.existsAt H.cwd (parsePath []) = false := by
    unfold Disk.existsAt
    rw [hfind]
  have h3 : H.createDirAll D (parsePath []) = ([], none) := by
    rw [Host.createDirAll]
    rfl
  obtain ⟨i, rest, rfl⟩ := List.exists_cons_of_ne_nil hi
  have h4 : ∀ D : Disk, ∃ p, H.input D suffix (some []) i = ([], some p) := by
    intro D
    unfold Host.input
    split
    · exact ⟨_, rfl⟩
    · split
      · exact ⟨_, rfl⟩
      · split
        · exact ⟨_, rfl⟩
        · split
          · exact ⟨_, rfl⟩
          · split
            · exact ⟨_, rfl⟩
            · have : H.canonicalize D [] = none := by
                unfold Host.canonicalize
                rw [hfind]
              dsimp only
              rw [this]
              exact ⟨_, rfl⟩
  obtain ⟨p, hp⟩ := h4 (D.addDirs [])
  refine ⟨p, ?_⟩
  unfold Host.process
  dsimp only
  rw [h1, h2, h3]
  simp only [Bool.not_false, Bool.and_false, Bool.false_eq_true, if_false]
  unfold Host.inputs
  rw [hp]
  rfl

/-- Where the outputs go if `-o` is a path of proper names. -/
theorem plain_output (D : Disk) (hD : D.Sound) (hc : D.isDir H.cwd = true) (o : PathStr) (abs : Bool) (names : List (List Char))
    (ho : parsePath o = ⟨abs, names⟩) (hne : names ≠ []) (hn : ∀ n ∈ names, ProperName n) (hok : (H.createDirAll D (parsePath o)).2 = none) :
    OutputsIn H (H.prepared D (some o)) (some o) ((if abs then [] else H.cwd) ++ names) := by
  obtain ⟨_, m2, _⟩ := folder_made_iff H D hD abs names hn hc
  rw [ho] at hok
  have hd : ∀ k ≤ names.length, (H.prepared D (some o)).isDir ((if abs then [] else H.cwd) ++ names.take k) = true := by
    intro k hk
    have e : H.prepared D (some o) = D.addDirs (H.createDirAll D ⟨abs, names⟩).1 := by
      rw [← ho]
      rfl
    rw [e, addDirs_isDir]
    by_cases h : D.isDir ((if abs then [] else H.cwd) ++ names.take k) = true
    · exact Or.inl h
    · exact Or.inr ((m2 hok _).mpr ⟨by simpa using h, k, hk, rfl⟩)
  show (H.prepared D (some o)).find H.cwd (parsePath o) = _
  rw [ho]
  unfold Disk.find
  have : RawPath.isEmpty ⟨abs, names⟩ = false := by
    unfold RawPath.isEmpty
    simp [hne]
  rw [this]
  simp only [Bool.false_eq_true, if_false]
  exact walk_down _ _ names hn fun k hk => hd k hk.le

end

instance (n : List Char) : Decidable (ProperName n) := by unfold ProperName; infer_instance

/-- A tree: `/home/in` with two pictures, `/home/note`, a file, and `/out/a-x`. -/
def toyTree : Disk where
  isDir l := decide (l ∈ [[], ["home".toList], ["home".toList, "in".toList], ["out".toList], ["out".toList, "a-x".toList]])
  content l := if l ∈ [["home".toList, "in".toList, "a.png".toList], ["home".toList, "in".toList, "b.png".toList], ["home".toList, "note".toList]]
    then some [7] else none

theorem toyTree_sound : toyTree.Sound where
  root := by decide
  inside l n h := by
    have hl : l = (l ++ [n]).dropLast := by simp
    have hn : n = (l ++ [n]).getLastD [] := by simp
    have hm : l ++ [n] ∈ [[], ["home".toList], ["home".toList, "in".toList], ["out".toList], ["out".toList, "a-x".toList],
        ["home".toList, "in".toList, "a.png".toList], ["home".toList, "in".toList, "b.png".toList], ["home".toList, "note".toList]] := by
      rcases h with h | h
      · have h' : l ++ [n] ∈ [[], ["home".toList], ["home".toList, "in".toList], ["out".toList], ["out".toList, "a-x".toList]] :=
          of_decide_eq_true h
        exact List.mem_append_left _ h'
      · have h' : l ++ [n] ∈ [["home".toList, "in".toList, "a.png".toList], ["home".toList, "in".toList, "b.png".toList],
            ["home".toList, "note".toList]] := by
          by_contra hc
          exact h (if_neg hc)
        exact List.mem_append_right [[], ["home".toList], ["home".toList, "in".toList], ["out".toList], ["out".toList, "a-x".toList]] h'
    have key : ∀ m ∈ [[], ["home".toList], ["home".toList, "in".toList], ["out".toList], ["out".toList, "a-x".toList],
        ["home".toList, "in".toList, "a.png".toList], ["home".toList, "in".toList, "b.png".toList], ["home".toList, "note".toList]],
        m = [] ∨ toyTree.isDir m.dropLast = true ∧ ProperName (m.getLastD []) := by decide
    rcases key _ hm with h0 | ⟨k1, k2⟩
    · simp at h0
    · rw [← hl] at k1
      rw [← hn] at k2
      exact ⟨k1, k2⟩
  apart l h := by
    have h' : l ∈ [[], ["home".toList], ["home".toList, "in".toList], ["out".toList], ["out".toList, "a-x".toList]] := of_decide_eq_true h
    have key : ∀ m ∈ [[], ["home".toList], ["home".toList, "in".toList], ["out".toList], ["out".toList, "a-x".toList]],
      toyTree.content m = none := by decide
    exact key l h'

/-- The codecs of `toyWorld` on a tree, seen from `/home`. -/
noncomputable def toyHost : Host ℝ where
  deps := Deps.toyReal
  cwd := ["home".toList]
  allowed _ := true
  decode _ _ := some testImage
  formatOf _ := some 0
  encode _ image := ([[1]] ++ [[1, (image.pixel 0 0).r]], true)

/-- `-o new/dir` makes `/home/new` and `/home/new/dir`, and nothing else. -/
theorem toyHost_makes : (toyHost.createDirAll toyTree (parsePath "new/dir".toList)).2 = none ∧
    ∀ l, l ∈ (toyHost.createDirAll toyTree (parsePath "new/dir".toList)).1 ↔
      l = ["home".toList, "new".toList] ∨ l = ["home".toList, "new".toList, "dir".toList] := by
  have ho : parsePath "new/dir".toList = ⟨false, ["new".toList, "dir".toList]⟩ := by decide
  obtain ⟨m1, m2, _⟩ := folder_made_iff toyHost toyTree toyTree_sound false ["new".toList, "dir".toList] (by decide) (by decide)
  rw [ho]
  have h1 := m1.mpr fun k hk => by
    have hk' : k = 0 ∨ k = 1 ∨ k = 2 := by
      have : ["new".toList, "dir".toList].length = 2 := rfl
      omega
    rcases hk' with rfl | rfl | rfl
    · exact ⟨by decide, Or.inr rfl⟩
    · exact ⟨by decide, Or.inr rfl⟩
    · exact ⟨by decide, Or.inr rfl⟩
  refine ⟨h1, fun l => (m2 h1 l).trans ⟨?_, ?_⟩⟩
  · rintro ⟨h, k, hk, rfl⟩
    have hk' : k = 0 ∨ k = 1 ∨ k = 2 := by
      have : ["new".toList, "dir".toList].length = 2 := rfl
      omega
    rcases hk' with rfl | rfl | rfl
    · exact absurd h (by decide)
    · exact Or.inl rfl
    · exact Or.inr rfl
  · rintro (rfl | rfl)
    · exact ⟨by decide, 1, by decide, rfl⟩
    · exact ⟨by decide, 2, by decide, rfl⟩

/-- A file in the way: nothing is made. -/
example : (toyHost.createDirAll toyTree (parsePath "note/dir".toList)).1 = [] ∧
    (toyHost.createDirAll toyTree (parsePath "note/dir".toList)).2 ≠ none := by
  have ho : parsePath "note/dir".toList = ⟨false, ["note".toList, "dir".toList]⟩ := by decide
  obtain ⟨m1, _, m3⟩ := folder_made_iff toyHost toyTree toyTree_sound false ["note".toList, "dir".toList] (by decide) (by decide)
  rw [ho]
  refine ⟨m3 ⟨1, by decide, by decide⟩, fun h => ?_⟩
  exact absurd (m1.mp h 1 (by decide)).1 (by decide)

/-- `-o note`: exit status 1. -/
example : toyHost.process toyTree ["in/a.png".toList] (some "wm".toList) (some "note".toList) = ([], some .exitOne) :=
  output_is_file toyHost toyTree toyTree_sound _ _ _ ["home".toList, "note".toList] (by
    have : parsePath "note".toList = ⟨false, ["note".toList]⟩ := by decide
    rw [this]
    rfl) (by decide)

/-- From the general statement to the four files looked at. -/
theorem toyHost_batch_facts (run : List Change × Option Panic) (v : UInt8) (hb : run.2 = none ∧
      (∀ j ∈ [("in/".toList ++ "a".toList ++ ".png".toList, "a".toList, "png".toList, ["home".toList, "in".toList, "a".toList ++ ".png".toList], [1, v]),
     ("in/".toList ++ "b".toList ++ ".png".toList, "b".toList, "png".toList, ["home".toList, "in".toList, "b".toList ++ ".png".toList], [1, v])], (toyTree.changes run.1).content ((["home".toList] ++ ["new".toList, "dir".toList]) ++ [j.2.1 ++ '-' :: "wm".toList ++ '.' :: j.2.2.1]) = some j.2.2.2.2) ∧
      ∀ l, (∀ j ∈ [("in/".toList ++ "a".toList ++ ".png".toList, "a".toList, "png".toList, ["home".toList, "in".toList, "a".toList ++ ".png".toList], [1, v]),
     ("in/".toList ++ "b".toList ++ ".png".toList, "b".toList, "png".toList, ["home".toList, "in".toList, "b".toList ++ ".png".toList], [1, v])], l ≠ (["home".toList] ++ ["new".toList, "dir".toList]) ++ [j.2.1 ++ '-' :: "wm".toList ++ '.' :: j.2.2.1]) → (toyTree.changes run.1).content l = toyTree.content l) :
      run.2 = none ∧
      (toyTree.changes run.1).content ["home".toList, "new".toList, "dir".toList, "a-wm.png".toList] = some [1, v] ∧
      (toyTree.changes run.1).content ["home".toList, "new".toList, "dir".toList, "b-wm.png".toList] = some [1, v] ∧
      (toyTree.changes run.1).content ["home".toList, "in".toList, "a.png".toList] = some [7] := by
  obtain ⟨b1, b2, b3⟩ := hb
  refine ⟨b1, b2 _ List.mem_cons_self, b2 _ (List.mem_cons_of_mem _ List.mem_cons_self), ?_⟩
  refine (b3 _ fun j hj => ?_).trans (by decide)
  rcases List.mem_cons.mp hj with rfl | hj
  · show (["home".toList, "in".toList, "a.png".toList] : Place) ≠
          (["home".toList] ++ ["new".toList, "dir".toList]) ++ ["a".toList ++ '-' :: "wm".toList ++ '.' :: "png".toList]
    decide
  · cases List.mem_singleton.mp hj
    show (["home".toList, "in".toList, "a.png".toList] : Place) ≠
          (["home".toList] ++ ["new".toList, "dir".toList]) ++ ["b".toList ++ '-' :: "wm".toList ++ '.' :: "png".toList]
    decide

/-- C96 on the tree: `in/a.png in/b.png -s wm -o new/dir`. -/
theorem toyHost_batch : ∃ v,
    let run := toyHost.process toyTree ["in/a.png".toList, "in/b.png".toList] (some "wm".toList) (some "new/dir".toList)
    run.2 = none ∧
      (toyTree.changes run.1).content ["home".toList, "new".toList, "dir".toList, "a-wm.png".toList] = some [1, v] ∧
      (toyTree.changes run.1).content ["home".toList, "new".toList, "dir".toList, "b-wm.png".toList] = some [1, v] ∧
      (toyTree.changes run.1).content ["home".toList, "in".toList, "a.png".toList] = some [7] := by
  obtain ⟨out, hout⟩ := testImage_marks
  refine ⟨(out.pixel 0 0).r, ?_⟩
  have ho : parsePath "new/dir".toList = ⟨false, ["new".toList, "dir".toList]⟩ := by decide
  obtain ⟨t1, t2⟩ := toyHost_makes
  have hdir := plain_output toyHost toyTree toyTree_sound (by decide) "new/dir".toList false _ ho (by decide) (by decide) t1
  obtain ⟨hS, hG, _⟩ := folder_ready toyHost toyTree toyTree_sound (by decide) (some "new/dir".toList) (by decide)
    (fun o h => by cases h; exact t1)
  have hfind : ∀ (p : PathStr) (l : Place), toyTree.find toyHost.cwd (parsePath p) = .ok l →
      (toyHost.prepared toyTree (some "new/dir".toList)).find toyHost.cwd (parsePath p) = .ok l := fun p l h => find_grows hG.1 h
  have hfree : ∀ l : Place, toyTree.isDir l = false → l ≠ ["home".toList, "new".toList] → l ≠ ["home".toList, "new".toList, "dir".toList] →
      (toyHost.prepared toyTree (some "new/dir".toList)).isDir l = false := by
    intro l h1 h2 h3
    rw [Bool.eq_false_iff]
    intro h
    rcases (addDirs_isDir _ _ _).mp h with h | h
    · rw [h1] at h
      cases h
    · rcases (t2 l).mp h with h | h
      · exact h2 h
      · exact h3 h
  have hmark : ∀ x : List Char, ∀ hx : x = "a".toList ∨ x = "b".toList,
      CanMark toyHost (toyHost.prepared toyTree (some "new/dir".toList)) "wm".toList (some "new/dir".toList)
        ["home".toList, "new".toList, "dir".toList] ("in/".toList ++ x ++ ".png".toList) x "png".toList
        ["home".toList, "in".toList, x ++ ".png".toList] [1, (out.pixel 0 0).r] := by
    intro x hx
    refine ⟨?_, hfind _ _ ?_, ⟨[7], testImage, out, 0, [[1]], ?_, rfl, hout, rfl, rfl⟩, hfree _ ?_ ?_ ?_, rfl⟩
    · rcases hx with rfl | rfl
      · exact ⟨by decide, by decide, by decide⟩
      · exact ⟨by decide, by decide, by decide⟩
    · rcases hx with rfl | rfl
      · have : parsePath ("in/".toList ++ "a".toList ++ ".png".toList) = ⟨false, ["in".toList, "a.png".toList]⟩ := by decide
        rw [this]
        rfl
      · have : parsePath ("in/".toList ++ "b".toList ++ ".png".toList) = ⟨false, ["in".toList, "b.png".toList]⟩ := by decide
        rw [this]
        rfl
    · rw [hG.2]
      rcases hx with rfl | rfl
      · decide
      · decide
    · rcases hx with rfl | rfl
      · decide
      · decide
    · rcases hx with rfl | rfl
      · decide
      · decide
    · rcases hx with rfl | rfl
      · decide
      · decide
  have hb := tree_batch toyHost toyTree toyTree_sound (by decide) "wm".toList (by decide) (some "new/dir".toList) (by decide)
    (fun o h => by cases h; exact t1) _ hdir
    [("in/".toList ++ "a".toList ++ ".png".toList, "a".toList, "png".toList, ["home".toList, "in".toList, "a".toList ++ ".png".toList], [1, (out.pixel 0 0).r]),
     ("in/".toList ++ "b".toList ++ ".png".toList, "b".toList, "png".toList, ["home".toList, "in".toList, "b".toList ++ ".png".toList], [1, (out.pixel 0 0).r])]
    (by
      intro j hj
      rcases List.mem_cons.mp hj with rfl | hj
      · exact hmark _ (Or.inl rfl)
      · cases List.mem_singleton.mp hj
        exact hmark _ (Or.inr rfl))
    (by show [("a".toList, "png".toList), ("b".toList, "png".toList)].Nodup; decide)
    (by
      intro j hj k hk
      have key : ∀ x ∈ ["a".toList, "b".toList], ∀ y ∈ ["a".toList, "b".toList], (["home".toList, "in".toList, y ++ ".png".toList] : Place) ≠
          (["home".toList] ++ ["new".toList, "dir".toList]) ++ [x ++ '-' :: "wm".toList ++ '.' :: "png".toList] := by decide
      rcases List.mem_cons.mp hj with rfl | hj
      · rcases List.mem_cons.mp hk with rfl | hk
        · exact key _ List.mem_cons_self _ List.mem_cons_self
        · cases List.mem_singleton.mp hk
          exact key _ List.mem_cons_self _ (List.mem_cons_of_mem _ List.mem_cons_self)
      · cases List.mem_singleton.mp hj
        rcases List.mem_cons.mp hk with rfl | hk
        · exact key _ (List.mem_cons_of_mem _ List.mem_cons_self) _ List.mem_cons_self
        · cases List.mem_singleton.mp hk
          exact key _ (List.mem_cons_of_mem _ List.mem_cons_self) _ (List.mem_cons_of_mem _ List.mem_cons_self))
  have hmap : List.map Prod.fst [("in/".toList ++ "a".toList ++ ".png".toList, "a".toList, "png".toList, ["home".toList, "in".toList, "a".toList ++ ".png".toList], [1, (out.pixel 0 0).r]),
     ("in/".toList ++ "b".toList ++ ".png".toList, "b".toList, "png".toList, ["home".toList, "in".toList, "b".toList ++ ".png".toList], [1, (out.pixel 0 0).r])]
      = ["in/a.png".toList, "in/b.png".toList] := by
    show ["in/".toList ++ "a".toList ++ ".png".toList, "in/".toList ++ "b".toList ++ ".png".toList] = _
    decide
  rw [hmap] at hb
  exact toyHost_batch_facts _ _ hb


/-- From the general statement to the file looked at. -/
theorem toyHost_escapes_facts (ready : Disk) (run : List Change × Option Panic) (v : UInt8) (es : List (Option Place × List UInt8))
    (h3 : (fileChanges run.1, run.2) = (es ++ [(some ([] ++ ["b".toList ++ '.' :: "png".toList]), [1, v])], none))
    (h4 : ∀ l, (toyTree.changes run.1).content l =
      (toyHost.world ready).after toyTree.files (es ++ [(some ([] ++ ["b".toList ++ '.' :: "png".toList]), [1, v])]) (some l)) :
    run.2 = none ∧ toyTree.content ["b.png".toList] = none ∧ (toyTree.changes run.1).content ["b.png".toList] = some [1, v] := by
  refine ⟨congrArg Prod.snd h3, by decide, ?_⟩
  refine (h4 _).trans ?_
  have hb : (some ["b.png".toList] : Option Place) = some ([] ++ ["b".toList ++ '.' :: "png".toList]) := by decide
  rw [hb]
  exact after_last (toyHost.world ready) _ _ _ _

/-- C96, the need for the condition: `in/a.png -s x/../../b -o /out` writes `/b.png`, outside `/out`. -/
theorem toyHost_escapes : ∃ v,
    let run := toyHost.process toyTree ["in/a.png".toList] (some "x/../../b".toList) (some "/out".toList)
    run.2 = none ∧ toyTree.content ["b.png".toList] = none ∧ (toyTree.changes run.1).content ["b.png".toList] = some [1, v] := by
  obtain ⟨out, hout⟩ := testImage_marks
  refine ⟨(out.pixel 0 0).r, ?_⟩
  have ho : parsePath "/out".toList = ⟨true, ["out".toList]⟩ := by decide
  obtain ⟨m1, m2, _⟩ := folder_made_iff toyHost toyTree toyTree_sound true ["out".toList] (by decide) (by decide)
  have t1 : (toyHost.createDirAll toyTree (parsePath "/out".toList)).2 = none := by
    rw [ho]
    refine m1.mpr fun k hk => ?_
    have hk' : k = 0 ∨ k = 1 := by
      have : ["out".toList].length = 1 := rfl
      omega
    rcases hk' with rfl | rfl
    · exact ⟨by decide, Or.inr rfl⟩
    · exact ⟨by decide, Or.inr rfl⟩
  have hdir := plain_output toyHost toyTree toyTree_sound (by decide) "/out".toList true _ ho (by decide) (by decide) t1
  obtain ⟨hS, hG, dir, h1, h2, h3, _, h4⟩ := (tree_process toyHost toyTree toyTree_sound (by decide) ["in/a.png".toList] "x/../../b".toList
    (some "/out".toList) (by decide)).2 (fun o h => by cases h; exact t1)
  have hdd : dir = [] ++ ["out".toList] := by
    have a1 : (toyHost.prepared toyTree (some "/out".toList)).find toyHost.cwd (parsePath "/out".toList) = .ok dir := h1
    have a2 : (toyHost.prepared toyTree (some "/out".toList)).find toyHost.cwd (parsePath "/out".toList) = .ok ([] ++ ["out".toList]) := hdir
    rw [a1] at a2
    cases a2
    rfl
  subst hdd
  set ready := toyHost.prepared toyTree (some "/out".toList) with hready
  have hesc := suffix_escapes toyHost ready hS [] "out".toList "a".toList "png".toList "x".toList "b".toList
    (hG.1 _ (by decide)) (by decide) (by decide)
  have hx : "x".toList ++ "/../../".toList ++ "b".toList = "x/../../b".toList := by decide
  rw [hx] at hesc
  have hin : (toyHost.world ready).resolve "in/a.png".toList = some ["home".toList, "in".toList, "a.png".toList] := by
    refine (toOption_eq_some _ _).mpr (find_grows hG.1 ?_)
    have : parsePath "in/a.png".toList = ⟨false, ["in".toList, "a.png".toList]⟩ := by decide
    rw [this]
    rfl
  have hfree : ready.isDir ["b.png".toList] = false := by
    rw [Bool.eq_false_iff]
    intro h
    rcases (addDirs_isDir _ _ _).mp h with h | h
    · exact absurd h (by decide)
    · have h' : ["b.png".toList] ∈ (toyHost.createDirAll toyTree (parsePath "/out".toList)).1 := h
      rw [ho] at h' t1
      obtain ⟨_, k, hk, e⟩ := (m2 t1 _).mp h'
      have hk' : k = 0 ∨ k = 1 := by
        have : ["out".toList].length = 1 := rfl
        omega
      rcases hk' with rfl | rfl
      · exact absurd e (by decide)
      · exact absurd e (by decide)
  have hm : MarksTo (toyHost.world ready) "x/../../b".toList (some (absolute ([] ++ ["out".toList]))) "in/a.png".toList [7]
      (some ([] ++ ["b".toList ++ '.' :: "png".toList])) [1, (out.pixel 0 0).r] := by
    refine ⟨testImage, out, "a".toList, "png".toList, 0, [[1]], rfl, hout, ⟨by decide, by decide, by decide⟩, hesc.symm, ?_, rfl, rfl⟩
    show (!ready.isDir ["b.png".toList] && true) = true
    rw [hfree]
    rfl
  obtain ⟨es, e1, e2, e3⟩ := processInputs_cons_marks (toyHost.world ready) "x/../../b".toList (some (absolute ([] ++ ["out".toList])))
    toyTree.files "in/a.png".toList [] (some ([] ++ ["b".toList ++ '.' :: "png".toList]), [1, (out.pixel 0 0).r]) [7] (by rw [hin]; rfl) hm
  have hnil : ∀ g, processInputs (toyHost.world ready) "x/../../b".toList (some (absolute ([] ++ ["out".toList]))) g [] = ([], none) := fun _ => rfl
  rw [hnil, List.append_nil] at e3
  have hmap : Option.map (fun _ => absolute ([] ++ ["out".toList])) (some "/out".toList) = some (absolute ([] ++ ["out".toList])) := rfl
  rw [hmap, e3] at h3 h4
  exact toyHost_escapes_facts ready _ _ es h3 h4

/-- Two processes that read pictures in `/home/in`, one writing to `/out`, the other to `/home`. -/
example : Independent (toyHost.world toyTree) (fun b : Bool => if b then ⟨"wm".toList, some (absolute ["out".toList]), ["in/a.png".toList]⟩
    else ⟨"wm".toList, none, ["in/b.png".toList]⟩) := by
  refine own_folders_independent toyHost toyTree toyTree_sound (by decide) _ (fun b => if b then some "/out".toList else none)
    (fun b => if b then ["out".toList] else ["home".toList]) ?_ ?_ ?_ ?_ ?_ ?_
  · intro b
    cases b
    · rfl
    · rfl
  · intro b
    cases b
    · show '/' ∉ "wm".toList
      decide
    · show '/' ∉ "wm".toList
      decide
  · intro b
    cases b
    · rfl
    · show toyTree.find toyHost.cwd (parsePath "/out".toList) = .ok ["out".toList]
      have : parsePath "/out".toList = ⟨true, ["out".toList]⟩ := by decide
      rw [this]
      rfl
  · intro b
    cases b
    · show toyTree.isDir ["home".toList] = true
      decide
    · show toyTree.isDir ["out".toList] = true
      decide
  · intro b c h
    cases b
    · cases c
      · exact absurd rfl h
      · show ["home".toList] ≠ ["out".toList]
        decide
    · cases c
      · show ["out".toList] ≠ ["home".toList]
        decide
      · exact absurd rfl h
  · have hp : ∀ x ∈ ["a.png".toList, "b.png".toList], toyTree.find toyHost.cwd (parsePath ("in/".toList ++ x)) = .ok ["home".toList, "in".toList, x] := by
      intro x hx
      have : parsePath ("in/".toList ++ x) = ⟨false, ["in".toList, x]⟩ := by
        rcases List.mem_cons.mp hx with rfl | hx
        · decide
        · cases List.mem_singleton.mp hx
          decide
      rw [this]
      rcases List.mem_cons.mp hx with rfl | hx
      · rfl
      · cases List.mem_singleton.mp hx
        rfl
    intro b c h input hi name he
    cases b
    · cases c
      · exact absurd rfl h
      · cases List.mem_singleton.mp (show input ∈ ["in/a.png".toList] from hi)
        rw [show "in/a.png".toList = "in/".toList ++ "a.png".toList by decide, hp _ List.mem_cons_self] at he
        have e := congrArg List.length (Except.ok.inj he)
        exact absurd e (by show (3 : Nat) ≠ 2; decide)
    · cases c
      · cases List.mem_singleton.mp (show input ∈ ["in/b.png".toList] from hi)
        rw [show "in/b.png".toList = "in/".toList ++ "b.png".toList by decide, hp _ (List.mem_cons_of_mem _ List.mem_cons_self)] at he
        have e := congrArg List.length (Except.ok.inj he)
        exact absurd e (by show (3 : Nat) ≠ 2; decide)
      · exact absurd rfl h

end Sia
