import Verif.Props.LinkRecoveryProps
import Verif.Props.LinkRunExamples

/-! Concrete case for C106. -/
namespace Sia

/-- C106 on the tree of C101: `-o results/new` with the input `shot.png` (a link to `/home/in/a.png`), after any interrupted attempts. What
the run does without an interruption is in `toyLinks_run`. -/
theorem toyLinks_recovers (cuts : List Nat) :
    let T' := toyHost.linkAttempts ["shot.png".toList] "wm".toList "results/new".toList toyLinks cuts
    (∃ m, (toyHost.linkProcess T' ["shot.png".toList] (some "wm".toList) (some "results/new".toList)).1 =
        [["out".toList, "new".toList]].drop m) ∧
      (toyHost.linkProcess T' ["shot.png".toList] (some "wm".toList) (some "results/new".toList)).2 =
        (toyHost.linkProcess toyLinks ["shot.png".toList] (some "wm".toList) (some "results/new".toList)).2 ∧
      toyHost.linkCompleted ["shot.png".toList] "wm".toList "results/new".toList T' =
        toyHost.linkCompleted ["shot.png".toList] "wm".toList "results/new".toList toyLinks := by
  have hmade := toyLinks_makes
  obtain ⟨r1, r2, -, -, -⟩ := toyLinks_ready _ rfl
  have hS : (toyLinks.addDirs [["out".toList, "new".toList]]).Sound := by
    have := (link_folders_made toyHost toyLinks toyLinks_sound (parsePath "results/new".toList) (parse_parts _)).1 1
    rwa [hmade] at this
  refine link_recovery toyHost toyLinks toyLinks_sound (by decide) _ _ _ (by decide) _ hmade _ r1 ?_ cuts
  intro i _ stem ext hn j hj
  cases List.mem_singleton.mp hj
  have hl : (toyLinks.addDirs [["out".toList, "new".toList]]).link
      (["out".toList, "new".toList] ++ [stem ++ '-' :: "wm".toList ++ '.' :: ext]) = none := by
    by_contra hc
    have hm := toyLinks_mem ((["out".toList, "new".toList] : Place) ++ [stem ++ '-' :: "wm".toList ++ '.' :: ext]) hc
    simp only [List.mem_cons, List.not_mem_nil, or_false] at hm
    rcases hm with h | h | h | h <;> exact absurd (congrArg List.length h) (by simp)
  have h1 := link_output_there toyHost _ hS (some "results/new".toList) _ r1 i stem ext "wm".toList (by decide) hn hl
  have h2 : (toyHost.linkWorld (toyLinks.addDirs [["out".toList, "new".toList]])).resolve "shot.png".toList =
      some ["home".toList, "in".toList, "a.png".toList] := (toOption_eq_some _ _).mpr r2
  intro he
  have h3 := h1.symm.trans (he.trans h2)
  have h4 : some "out".toList = some "home".toList := congrArg List.head? (Option.some.inj h3)
  exact absurd h4 (by decide)

end Sia
