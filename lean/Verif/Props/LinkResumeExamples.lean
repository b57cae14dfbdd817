import Verif.Props.LinkResumeProps
import Verif.Props.LinkRunExamples

/-! Concrete case for `link_folders_resume` (C102). -/
namespace Sia

/-- `-o results/new/deep`, `/home/results` a link to `/out`: after an attempt killed when it had made `/out/new`, exactly `/out/new/deep` is
made. -/
theorem toyLinks_resume : toyHost.linkCreateDirAll (toyLinks.addDirs [["out".toList, "new".toList]]) (parsePath "results/new/deep".toList) =
    ([["out".toList, "new".toList, "deep".toList]], none) := by
  have hp : parsePath "results/new/deep".toList = ⟨false, ["results".toList] ++ ["new".toList, "deep".toList]⟩ := by decide
  have h1 : toyLinks.find toyHost.cwd (parsePath "results".toList) = .ok ["out".toList] := toyLinks_results.2
  have hp1 : parsePath "results".toList = ⟨false, ["results".toList]⟩ := by decide
  rw [hp1] at h1
  have hall : toyHost.linkCreateDirAll toyLinks ⟨false, ["results".toList] ++ ["new".toList, "deep".toList]⟩ =
      ([["out".toList, "new".toList], ["out".toList, "new".toList, "deep".toList]], none) :=
    link_folders_exactly toyHost toyLinks toyLinks_sound false ["results".toList] ["new".toList, "deep".toList] (by decide) (by decide)
      ["out".toList] h1 (by decide) (by decide) (by decide) (fun _ _ _ => rfl)
  rw [hp]
  exact link_folders_resume toyHost toyLinks toyLinks_sound _ (by decide) _ hall 1

end Sia
