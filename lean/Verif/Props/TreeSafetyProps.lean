import Verif.Props.TreeOutputProps
import Verif.Props.ConcurrentProps

/-! C95, C96: the tree stays a tree at every point of a run; what a suffix with slashes can do; processes with folders of their own. -/
namespace Sia

section
variable {F : Type} (H : Host F)

/-- A place where a file can be: in a folder, with a proper name, and no folder itself. -/
def FilePlace (isDir : Place → Bool) (l : Place) : Prop := isDir l = false ∧ ∃ up name, l = up ++ [name] ∧ isDir up = true ∧ ProperName name

theorem walk_place {D : Disk} (hD : D.Sound) (cur : Place) (hc : D.isDir cur = true) (cs : List (List Char)) (hs : ∀ m ∈ cs, '/' ∉ m)
    (m : Place) (hw : D.walk cur cs = .ok m) (hm : D.isDir m = false) : FilePlace D.isDir m := by
  induction cs using List.reverseRecOn generalizing m with
  | nil =>
    cases hw
    rw [hc] at hm
    cases hm
  | append_singleton cs c _ =>
    refine ⟨hm, ?_⟩
    rw [walk_append] at hw
    split at hw
    · rename_i l hl
      simp only [Disk.walk] at hw
      split at hw
      · rename_i hd
        cases hw
        unfold onward at hm ⊢
        split at hm
        · rw [hd] at hm
          cases hm
        · rename_i h1
          rw [if_neg h1]
          split at hm
          · exfalso
            rcases List.eq_nil_or_concat l with rfl | ⟨a, b, rfl⟩
            · rw [List.dropLast_nil, hd] at hm
              cases hm
            · have h3 : D.isDir (a ++ [b]) = true := by simpa using hd
              have h4 := (hD.inside a b (Or.inl h3)).1
              rw [List.concat_eq_append, List.dropLast_concat, h4] at hm
              cases hm
          · rename_i h2
            rw [if_neg h2]
            exact ⟨l, c, rfl, hd, fun e => h1 (Or.inl e), hs c (by simp), fun e => h1 (Or.inr e), h2⟩
      · cases hw
    · cases hw

theorem put_sound {D : Disk} (hD : D.Sound) (l : Place) (hl : FilePlace D.isDir l) (b : List UInt8) : (D.put l b).Sound := by
  obtain ⟨h1, up, name, rfl, h2, h3⟩ := hl
  refine ⟨hD.root, fun m n h => ?_, fun m h => ?_⟩
  · rcases h with h | h
    · exact hD.inside m n (Or.inl h)
    · simp only [Disk.put] at h ⊢
      split at h
      · rename_i e
        obtain ⟨rfl, e2⟩ := List.append_inj' e rfl
        cases e2
        exact ⟨h2, h3⟩
      · exact hD.inside m n (Or.inr h)
  · simp only [Disk.put] at h ⊢
    rw [if_neg]
    · exact hD.apart m h
    · rintro rfl
      rw [h1] at h
      cases h

/-- Changes of files at places where files can be keep a tree. -/
theorem files_sound (D : Disk) (hD : D.Sound) (cs : List Change) (h : ∀ c ∈ cs, ∃ l b, c = .file l b ∧ FilePlace D.isDir l) :
    (D.changes cs).Sound ∧ (D.changes cs).isDir = D.isDir := by
  induction cs generalizing D with
  | nil => exact ⟨hD, rfl⟩
  | cons c cs ih =>
    obtain ⟨l, b, rfl, hl⟩ := h c List.mem_cons_self
    exact ih (D.put l b) (put_sound hD l hl b) fun c hc => h c (List.mem_cons_of_mem _ hc)

theorem store_places (D : Disk) (hD : D.Sound) (hc : D.isDir H.cwd = true) (out : PathStr) (marked : DynamicImage) :
    ∀ c ∈ (H.store D out marked).1, ∃ l b, c = .file l b ∧ FilePlace D.isDir l := by
  intro c hcs
  unfold Host.store at hcs
  split at hcs
  · simp at hcs
  · rename_i l hl
    split at hcs
    · rename_i hcr
      have hd : D.isDir l = false := by
        simp only [Bool.and_eq_true, Bool.not_eq_true'] at hcr
        exact hcr.1
      have hp : FilePlace D.isDir l := by
        unfold Disk.find at hl
        split at hl
        · cases hl
        · refine walk_place hD _ ?_ _ (parse_parts out) l hl hd
          split
          · exact hD.root
          · exact hc
      split at hcs
      · exact ⟨l, [], List.mem_singleton.mp hcs, hp⟩
      · dsimp only at hcs
        rcases List.mem_cons.mp hcs with rfl | hcs
        · exact ⟨l, [], rfl, hp⟩
        · obtain ⟨b, _, rfl⟩ := List.mem_map.mp hcs
          exact ⟨l, b, rfl, hp⟩
    · simp at hcs

variable [FloatOps F]

theorem input_places (D : Disk) (hD : D.Sound) (hc : D.isDir H.cwd = true) (suffix : List Char) (output : Option PathStr)
    (input : PathStr) : ∀ c ∈ (H.input D suffix output input).1, ∃ l b, c = .file l b ∧ FilePlace D.isDir l := by
  intro c hcs
  unfold Host.input at hcs
  split at hcs
  · simp at hcs
  · split at hcs
    · simp at hcs
    · split at hcs
      · simp at hcs
      · split at hcs
        · simp at hcs
        · split at hcs
          · simp at hcs
          · split at hcs
            · exact store_places H D hD hc _ _ c hcs
            · split at hcs
              · simp at hcs
              · exact store_places H D hD hc _ _ c hcs

theorem inputs_places (suffix : List Char) (output : Option PathStr) (inputs : List PathStr) (D : Disk) (hD : D.Sound)
    (hc : D.isDir H.cwd = true) : ∀ c ∈ (H.inputs suffix output D inputs).1, ∃ l b, c = .file l b ∧ FilePlace D.isDir l := by
  induction inputs generalizing D with
  | nil =>
    intro c hcs
    simp [Host.inputs] at hcs
  | cons i inputs ih =>
    intro c hcs
    have h1 := input_places H D hD hc suffix output i
    unfold Host.inputs at hcs
    rcases hi : H.input D suffix output i with ⟨cs, r⟩
    rw [hi] at h1 hcs
    cases r with
    | some p => exact h1 c hcs
    | none =>
      dsimp only at hcs h1
      rcases List.mem_append.mp hcs with hcs | hcs
      · exact h1 c hcs
      · obtain ⟨s1, s2⟩ := files_sound D hD cs h1
        obtain ⟨l, b, e, hl⟩ := ih (D.changes cs) s1 (by rw [s2]; exact hc) c hcs
        exact ⟨l, b, e, s2 ▸ hl⟩

/-- C95: whatever the command line, and at whatever point a run is interrupted, the tree is a sound tree: every file lies in a folder, no
folder is lost, no file becomes a folder or a folder a file; and all folders there were not before lie on the way to the output folder. -/
theorem tree_sound (D : Disk) (hD : D.Sound) (hc : D.isDir H.cwd = true) (inputs : List PathStr) (suffix output : Option PathStr)
    (cs : List Change) (hcs : cs <+: (H.process D inputs suffix output).1) :
    (D.changes cs).Sound ∧ (∀ l, D.isDir l = true → (D.changes cs).isDir l = true) ∧
      (∀ l, (D.changes cs).isDir l = true → D.isDir l = true ∨ l ∈ H.madeFor D output) ∧
      ∀ l, D.content l ≠ none → (D.changes cs).content l ≠ none := by
  have hkeep : ∀ (cs : List Change) (D : Disk) (l : Place), D.content l ≠ none → (D.changes cs).content l ≠ none := by
    intro cs
    induction cs with
    | nil => exact fun D l h => h
    | cons c cs ih =>
      intro D l h
      refine ih (D.change c) l ?_
      cases c with
      | folder m => exact h
      | file m b =>
        show (if l = m then some b else D.content l) ≠ none
        split
        · simp
        · exact h
  refine (fun h => ⟨h.1, h.2.1, h.2.2, hkeep cs D⟩ : ((D.changes cs).Sound ∧ (∀ l, D.isDir l = true → (D.changes cs).isDir l = true) ∧
      (∀ l, (D.changes cs).isDir l = true → D.isDir l = true ∨ l ∈ H.madeFor D output)) → _) ?_
  have nothing : ∀ cs : List Change, cs <+: [] → (D.changes cs).Sound ∧ (∀ l, D.isDir l = true → (D.changes cs).isDir l = true) ∧
      (∀ l, (D.changes cs).isDir l = true → D.isDir l = true ∨ l ∈ H.madeFor D output) := by
    intro cs h
    rw [List.prefix_nil.mp h]
    exact ⟨hD, fun _ h => h, fun _ h => Or.inl h⟩
  unfold Host.process at hcs
  split at hcs
  · exact nothing cs hcs
  · rename_i s
    split at hcs
    · obtain ⟨s1, s2⟩ := files_sound D hD cs fun c hc' => inputs_places H s none inputs D hD hc c (hcs.subset hc')
      exact ⟨s1, fun l h => by rw [s2]; exact h, fun l h => by rw [s2] at h; exact Or.inl h⟩
    · rename_i o
      split at hcs
      · exact nothing cs hcs
      · obtain ⟨m1, _, _⟩ := folders_made H D hD (parsePath o) (parse_parts o)
        have folders : ∀ cs : List Change, cs <+: (H.createDirAll D (parsePath o)).1.map .folder →
            (D.changes cs).Sound ∧ (∀ l, D.isDir l = true → (D.changes cs).isDir l = true) ∧
              (∀ l, (D.changes cs).isDir l = true → D.isDir l = true ∨ l ∈ H.madeFor D (some o)) := by
          intro cs h
          have e : cs = ((H.createDirAll D (parsePath o)).1.take cs.length).map .folder := by
            rw [List.map_take]
            exact List.prefix_iff_eq_take.mp h
          rw [e, changes_folders]
          refine ⟨(m1 _).1, (m1 _).2.1, fun l hl => ?_⟩
          rcases (addDirs_isDir _ _ _).mp hl with hl | hl
          · exact Or.inl hl
          · exact Or.inr (List.mem_of_mem_take hl)
        rcases hm : H.createDirAll D (parsePath o) with ⟨ls, r⟩
        rw [hm] at hcs m1
        have folders' : ∀ cs : List Change, cs <+: ls.map .folder → _ := fun cs h => folders cs (by rw [hm]; exact h)
        cases r with
        | some e => exact folders' cs hcs
        | none =>
          dsimp only at hcs
          rcases prefix_append_cases hcs with h | ⟨t, rfl, ht⟩
          · exact folders' cs h
          · have hS : (D.addDirs ls).Sound := by
              have := (m1 ls.length).1
              rwa [List.take_length] at this
            have hg := addDirs_grows D ls
            obtain ⟨s1, s2⟩ := files_sound (D.addDirs ls) hS t fun c hc' =>
              inputs_places H s (some o) inputs (D.addDirs ls) hS (hg.1 _ hc) c (ht.subset hc')
            rw [changes_append, changes_folders]
            refine ⟨s1, fun l h => by rw [s2]; exact hg.1 l h, fun l h => ?_⟩
            rw [s2] at h
            rcases (addDirs_isDir _ _ _).mp h with h | h
            · exact Or.inl h
            · right
              show l ∈ (H.createDirAll D (parsePath o)).1
              rw [hm]
              exact h

end

section
variable {F : Type} [FloatOps F] (H : Host F)

theorem parse_inside (dir : Place) (hne : dir ≠ []) (hs : ∀ m ∈ dir, '/' ∉ m) (p : PathStr) :
    parsePath (absolute dir ++ '/' :: p) = ⟨true, dir ++ p.splitOn '/'⟩ := by
  rcases dir with _ | ⟨n, rest⟩
  · exact absurd rfl hne
  · unfold absolute
    rw [if_neg hne]
    simp only [List.flatMap_cons, List.cons_append, parsePath, if_true]
    rw [List.splitOn_append_cons_self, splitOn_names n (hs n List.mem_cons_self) rest fun m hm => hs m (List.mem_cons_of_mem _ hm)]
    rfl

/-- C96, the need for the condition: with a suffix `x/../../y` the output of `stem.ext` is `y.ext`, in the folder above the one `-o` names,
if there is a folder `stem-x` in that one. -/
theorem suffix_escapes (D : Disk) (hD : D.Sound) (up : Place) (n stem ext x y : List Char) (hd : D.isDir (up ++ [n] ++ [stem ++ '-' :: x]) = true)
    (hx : '/' ∉ stem ++ '-' :: x) (hy : ProperName (y ++ '.' :: ext)) :
    (H.world D).resolve (OutName stem ext (x ++ "/../../".toList ++ y) (some (absolute (up ++ [n])))) = some (up ++ [y ++ '.' :: ext]) := by
  have hd1 : D.isDir (up ++ [n]) = true := (hD.inside _ _ (Or.inl hd)).1
  have hd0 : D.isDir up = true := (hD.inside _ _ (Or.inl hd1)).1
  have e : OutName stem ext (x ++ "/../../".toList ++ y) (some (absolute (up ++ [n]))) =
      absolute (up ++ [n]) ++ '/' :: ((stem ++ '-' :: x) ++ '/' :: (['.', '.'] ++ '/' :: (['.', '.'] ++ '/' :: (y ++ '.' :: ext)))) := by
    unfold OutName
    have : "/../../".toList = ['/', '.', '.', '/', '.', '.', '/'] := by decide
    rw [this]
    simp
  show (D.find H.cwd (parsePath _)).toOption = _
  rw [toOption_eq_some, e, parse_inside _ (by simp) fun m hm => (hD.proper _ hd1 m hm).2.1]
  rw [List.splitOn_append_cons_self, List.splitOn_eq_singleton hx, List.splitOn_append_cons_self, List.splitOn_append_cons_self,
    List.splitOn_eq_singleton hy.2.1]
  have hdd : (['.', '.'] : List Char).splitOn '/' = [['.', '.']] := by decide
  rw [hdd]
  unfold Disk.find
  simp only [RawPath.isEmpty, Bool.not_true, Bool.false_and, Bool.false_eq_true, if_false, if_true]
  rw [walk_append, hD.walk_root _ hd1]
  have hp := (hD.inside _ _ (Or.inl hd)).2
  have o1 : onward (up ++ [n] ++ [stem ++ '-' :: x]) ['.', '.'] = up ++ [n] := by
    unfold onward
    rw [if_neg (by decide), if_pos rfl, List.dropLast_concat]
  have o2 : onward (up ++ [n]) ['.', '.'] = up := by
    unfold onward
    rw [if_neg (by decide), if_pos rfl, List.dropLast_concat]
  show D.walk (up ++ [n]) ((stem ++ '-' :: x) :: ['.', '.'] :: ['.', '.'] :: [y ++ '.' :: ext]) = _
  simp only [Disk.walk, hd1, if_true]
  rw [onward_proper _ _ hp, hd, if_pos rfl, o1, hd1, if_pos rfl, o2, hd0, if_pos rfl, onward_proper _ _ hy]

/-- C96, C93: processes whose output folders are different places, none of which holds an input of another process, do not disturb one
another (`concurrent_runs` and its companions apply). -/
theorem own_folders_independent {ι : Type} (D : Disk) (hD : D.Sound) (hc : D.isDir H.cwd = true) (c : ι → Command) (output : ι → Option PathStr)
    (dir : ι → Place) (hfolder : ∀ i, (c i).folder = (output i).map fun _ => absolute (dir i)) (hs : ∀ i, '/' ∉ (c i).suffix)
    (h1 : ∀ i, OutputsIn H D (output i) (dir i)) (h2 : ∀ i, D.isDir (dir i) = true) (hne : ∀ i j, i ≠ j → dir i ≠ dir j)
    (hin : ∀ i j, i ≠ j → ∀ input ∈ (c j).inputs, ∀ name, D.find H.cwd (parsePath input) ≠ .ok (dir i ++ [name])) :
    Independent (H.world D) c := by
  have hw : ∀ i, ∀ l ∈ (c i).writes (H.world D), ∃ name, l = some (dir i ++ [name]) := by
    rintro i l ⟨input, _, stem, ext, hn, rfl⟩
    rw [hfolder i]
    exact ⟨_, output_resolves H D hD hc (output i) (dir i) (h1 i) (h2 i) input stem ext _ (hs i) hn⟩
  intro i j hij l hl
  obtain ⟨name, rfl⟩ := hw i l hl
  refine ⟨fun hl' => ?_, ?_⟩
  · obtain ⟨name', e⟩ := hw j _ hl'
    exact hne i j hij (List.append_inj' (Option.some.inj e) rfl).1
  · rintro ⟨input, hi, e⟩
    exact hin i j hij input hi name ((toOption_eq_some _ _).mp e.symm)

end
end Sia
