import Verif.Props.FolderRaceSafety
import Verif.Props.TreeExamples

/-! Processes whose output folders are apart, and concrete cases for C98. -/
namespace Sia

/-- The process has passed the check of main.rs:23. -/
def Prep.past : Prep → Bool
  | .start => false
  | .startExists => false
  | .ended (some .exitOne) => false
  | _ => true

section
variable {F : Type} (H : Host F) {ι : Type} [DecidableEq ι]

/-- Past the check, a process stays past it. -/
theorem past_stays (D : Disk) (o : RawPath) (a : Prep) (h : a.past = true) : (H.prepare D o a).2.past = true := by
  cases a with
  | start => cases h
  | startExists => cases h
  | make p above =>
    simp only [Host.prepare]
    repeat' split
    all_goals rfl
  | check p above =>
    simp only [Host.prepare]
    split <;> rfl
  | remake above =>
    cases above with
    | nil => rfl
    | cons p above =>
      simp only [Host.prepare]
      split <;> rfl
  | ended r => exact h

/-- A process that makes a folder is past the check. -/
theorem maker_past (D : Disk) (o : RawPath) (a : Prep) (l : Place) (h : (H.prepare D o a).1 = some l) : a.past = true := by
  cases a with
  | start => cases h
  | startExists => cases h
  | make p above => rfl
  | check p above => rfl
  | remake above => rfl
  | ended r => cases h

/-- C98: a process gives up only because of a folder that another process made: processes whose output folder is not on the way to another
process's output folder all get through, after at most three calls for each name of the path and five. -/
theorem folder_race_apart (o : ι → RawPath) (D : Disk) (hD : D.Sound) (hc : D.isDir H.cwd = true) (ho : ∀ i, WayClear H D (o i))
    (i : ι) (hi : ∀ j, j ≠ i → ∀ k ≤ (o j).parts.length, onWay H (o j) k ≠ wayEnd H (o i)) (w : List ι)
    (hw : 3 * (o i).parts.length + 5 ≤ w.count i) :
    let s := w.foldl (Stage.step H o) ⟨D, fun _ => .start⟩
    s.pos i = .ended none ∧ s.disk.isDir (wayEnd H (o i)) = true := by
  intro s
  have key : ∀ w : List ι, let s := w.foldl (Stage.step H o) ⟨D, fun _ => .start⟩
      Course H o ⟨D, fun _ => .start⟩ w s ∧
      ∀ l, s.disk.isDir l = true → D.isDir l = true ∨ ∃ j, (s.pos j).past = true ∧ ∃ k ≤ (o j).parts.length, l = onWay H (o j) k := by
    intro w
    induction w using List.reverseRecOn with
    | nil => exact ⟨.nil, fun _ h => .inl h⟩
    | append_singleton w j ih =>
      obtain ⟨c, m⟩ := ih
      rw [List.foldl_append]
      simp only [List.foldl_cons, List.foldl_nil]
      generalize w.foldl (Stage.step H o) ⟨D, fun _ => .start⟩ = s' at c m ⊢
      obtain ⟨h1, h2, h3, h4⟩ := course_fine H o D hD hc ho w s' c
      have hclear : WayClear H s'.disk (o j) := ⟨(ho j).names, h3 j, fun k hk => ((ho j).mayMake k hk).imp_left (h2 _)⟩
      obtain ⟨_, _, r3, r4, _⟩ := fine_step H h2 h1 (h2 _ hc) (o j) hclear (s'.pos j) (h4 j)
      have old : ∀ l, s'.disk.isDir l = true → D.isDir l = true ∨
          ∃ j', ((s'.step H o j).pos j').past = true ∧ ∃ k ≤ (o j').parts.length, l = onWay H (o j') k := by
        intro l hl
        rcases m l hl with h | ⟨j', hp, h⟩
        · exact .inl h
        · refine .inr ⟨j', ?_, h⟩
          show (if j' = j then (H.prepareStep (o j) (s'.disk, s'.pos j)).2 else s'.pos j').past = true
          by_cases e : j' = j
          · subst e
            rw [if_pos rfl, prepareStep_snd]
            exact past_stays H _ _ _ hp
          · rw [if_neg e]
            exact hp
      refine ⟨.step w s' j c, fun l hl => ?_⟩
      by_cases hnew : s'.disk.isDir l = true
      · exact old l hnew
      · rcases r4 l hl with h | h
        · exact absurd h hnew
        · refine .inr ⟨j, ?_, h⟩
          show (if j = j then (H.prepareStep (o j) (s'.disk, s'.pos j)).2 else s'.pos j).past = true
          rw [if_pos rfl, prepareStep_snd]
          refine past_stays H _ _ _ ?_
          cases hm : (H.prepare s'.disk (o j) (s'.pos j)).1 with
          | some l' => exact maker_past H _ _ _ l' hm
          | none =>
            exfalso
            apply hnew
            have : (H.prepareStep (o j) (s'.disk, s'.pos j)).1 = s'.disk := by
              show (match (H.prepare s'.disk (o j) (s'.pos j)).1 with
                | none => s'.disk
                | some l => s'.disk.addDir l) = s'.disk
              rw [hm]
            rw [← this]
            exact hl
  obtain ⟨c, m⟩ := key w
  have hs := folder_race_safe H o D hD hc ho w s c
  rcases folder_race_ends H o D hD hc ho w s c i hw with h | ⟨h, hd⟩
  · exact ⟨h, (hs.2.2 i).1 h⟩
  · exfalso
    rcases m _ ((hs.2.2 i).2 _ h).2.2 with h' | ⟨j, hp, k, hk, e⟩
    · rw [hd] at h'
      cases h'
    · by_cases hji : j = i
      · subst hji
        have : (s.pos j).past = true := hp
        rw [h] at this
        cases this
      · exact hi j hji k hk e.symm

end

/-- The way to `new/<name>` is clear. -/
theorem toyHost_way (n : List Char) (hn : ProperName n) : WayClear toyHost toyTree ⟨false, ["new".toList, n]⟩ where
  names := by
    intro m hm
    rcases List.mem_cons.mp hm with rfl | hm
    · decide
    · rw [List.mem_singleton.mp hm]
      exact hn
  noFile k hk := by
    have hk' : k = 0 ∨ k = 1 ∨ k = 2 := by
      have : ["new".toList, n].length = 2 := rfl
      simp only [this] at hk
      omega
    rcases hk' with rfl | rfl | rfl
    · show toyTree.content ["home".toList] = none
      decide
    · show toyTree.content ["home".toList, "new".toList] = none
      decide
    · simp [toyTree, onWay, toyHost]
  mayMake k _ := .inr rfl

/-- Two processes, one with `-o new/a`, one with `-o new/b`: whatever the order of their calls, both get through. -/
example (w : List Bool) (h : ∀ b, 11 ≤ w.count b) :
    let o : Bool → RawPath := fun b => ⟨false, ["new".toList, if b then "a".toList else "b".toList]⟩
    let s := w.foldl (Stage.step toyHost o) ⟨toyTree, fun _ => .start⟩
    ∀ b, s.pos b = .ended none ∧ s.disk.isDir ["home".toList, "new".toList, if b then "a".toList else "b".toList] = true := by
  intro o s b
  have := folder_race_apart toyHost o toyTree toyTree_sound (by decide) (fun b => toyHost_way _ (by cases b <;> decide)) b
    (by
      intro j hj k hk
      have hk' : k = 0 ∨ k = 1 ∨ k = 2 := by
        have : (o j).parts.length = 2 := rfl
        omega
      rcases hk' with rfl | rfl | rfl <;> cases b <;> cases j <;> first | exact absurd rfl hj | (simp [onWay, wayEnd, o])) w (h b)
  exact this

/-- Two processes with `-o new`: in this order of calls the second gives up, although `new` is a folder. -/
example :
    let p : RawPath := ⟨false, ["new".toList]⟩
    let s := [true, false, true, true, false].foldl (Stage.step toyHost fun _ : Bool => p) ⟨toyTree, fun _ => .start⟩
    s.pos false = .ended (some .exitOne) ∧ s.disk.isDir ["home".toList, "new".toList] = true := by
  have hp : WayClear toyHost toyTree ⟨false, ["new".toList]⟩ := by
    refine ⟨by decide, fun k hk => ?_, fun k hk => .inr rfl⟩
    have hk' : k = 0 ∨ k = 1 := by
      have : ["new".toList].length = 1 := rfl
      simp only [this] at hk
      omega
    rcases hk' with rfl | rfl
    · show toyTree.content ["home".toList] = none
      decide
    · show toyTree.content ["home".toList, "new".toList] = none
      decide
  obtain ⟨h1, h2, _⟩ := folder_race_lost toyHost ⟨false, ["new".toList]⟩ toyTree toyTree_sound (by decide) hp 0 rfl (by decide) (by decide)
  exact ⟨h1, h2⟩

end Sia
