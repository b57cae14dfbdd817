import Verif.Props.TreeSafetyProps
import Verif.Props.TreeOutputProps
import Verif.Spec.LinkTreeSpec

/-! C101: the tool on a tree with symbolic links. -/
namespace Sia

/-- C101: a path is found exactly if it leads somewhere with no more links than may be followed. -/
theorem follow_iff (T : LinkDisk) (n : Nat) (cur : Place) (parts : List (List Char)) (l : Place) :
    T.follow n cur parts = .ok l ↔ ∃ k ≤ n, LeadsTo T k cur parts l := by
  constructor
  · intro h
    induction n, cur, parts using LinkDisk.follow.induct T with
    | case1 n cur =>
      rw [LinkDisk.follow] at h
      cases h
      exact ⟨0, Nat.zero_le _, .here _⟩
    | case2 n cur c cs hd hl ih =>
      rw [LinkDisk.follow, if_pos hd, hl] at h
      obtain ⟨k, hk, hs⟩ := ih h
      exact ⟨k, hk, .step hd hl hs⟩
    | case3 cur c cs hd text hl =>
      rw [LinkDisk.follow, if_pos hd, hl] at h
      cases h
    | case4 cur c cs hd text hl n ih =>
      rw [LinkDisk.follow, if_pos hd, hl] at h
      obtain ⟨k, hk, hs⟩ := ih h
      exact ⟨k + 1, Nat.succ_le_succ hk, .jump hd hl hs⟩
    | case5 n cur c cs hd =>
      rw [LinkDisk.follow, if_neg hd] at h
      cases h
  · rintro ⟨k, hk, h⟩
    induction h generalizing n with
    | here l => rw [LinkDisk.follow]
    | step hd hl _ ih =>
      rw [LinkDisk.follow, if_pos hd, hl]
      exact ih n hk
    | jump hd hl _ ih =>
      rw [LinkDisk.follow, if_pos hd, hl]
      cases n with
      | zero => omega
      | succ n => exact ih n (by omega)

section
variable {T : LinkDisk}

theorem LinkDisk.Sound.dir_no_link (hT : T.Sound) (l : Place) (h : T.isDir l = true) : T.link l = none := by
  by_contra hl
  rw [(hT.apart l hl).1] at h
  cases h

/-- A path that can be gone without links, and does not end at one, leads to the same place. -/
theorem follow_plain (hT : T.Sound) (n : Nat) (cur : Place) (parts : List (List Char)) (l : Place)
    (h : T.toDisk.walk cur parts = .ok l) (hl : T.link l = none) : T.follow n cur parts = .ok l := by
  induction parts generalizing cur with
  | nil =>
    cases h
    rw [LinkDisk.follow]
  | cons c cs ih =>
    simp only [Disk.walk] at h
    split at h
    · rename_i hd
      rw [LinkDisk.follow, if_pos hd]
      have hnext : T.link (onward cur c) = none := by
        cases cs with
        | nil =>
          cases h
          exact hl
        | cons c' cs' =>
          simp only [Disk.walk] at h
          split at h
          · rename_i hd'
            exact hT.dir_no_link _ hd'
          · cases h
      rw [hnext]
      exact ih _ h
    · cases h

theorem find_plain (hT : T.Sound) (cwd : Place) (p : RawPath) (l : Place) (h : T.toDisk.find cwd p = .ok l) (hl : T.link l = none) :
    T.find cwd p = .ok l := by
  unfold Disk.find at h
  unfold LinkDisk.find
  split at h
  · cases h
  · rename_i hp
    rw [if_neg hp]
    exact follow_plain hT 40 _ _ l h hl

/-- Going on or up from a folder, or staying, does not lead to a link unless the part is its name. -/
theorem link_name (hT : T.Sound) (cur : Place) (hd : T.isDir cur = true) (c : List Char) (h : T.link (onward cur c) ≠ none) :
    onward cur c = cur ++ [c] := by
  unfold onward at h ⊢
  split at h
  · exact absurd (hT.dir_no_link cur hd) h
  · rename_i h1
    rw [if_neg h1]
    split at h
    · exfalso
      refine h (hT.dir_no_link _ ?_)
      rcases List.eq_nil_or_concat cur with rfl | ⟨a, b, rfl⟩
      · exact hd
      · have : T.isDir (a ++ [b]) = true := by simpa using hd
        simpa using (hT.tree.inside a b (Or.inl this)).1
    · rename_i h2
      rw [if_neg h2]

/-- A path that can be gone without links up to its end, which is a link, goes on as the text of the link says. -/
theorem follow_link (hT : T.Sound) (n : Nat) (cur : Place) (parts : List (List Char)) (l : Place) (text : PathStr)
    (hp : parts ≠ []) (h : T.toDisk.walk cur parts = .ok l) (hl : T.link l = some text) :
    T.follow (n + 1) cur parts = T.follow n (if (parsePath text).abs then [] else l.dropLast) (parsePath text).parts := by
  induction parts generalizing cur with
  | nil => exact absurd rfl hp
  | cons c cs ih =>
    simp only [Disk.walk] at h
    split at h
    · rename_i hd
      rw [LinkDisk.follow, if_pos hd]
      cases cs with
      | nil =>
        cases h
        rw [hl]
        have e := link_name hT cur hd c (by rw [hl]; exact fun h => (by cases h))
        rw [e, List.dropLast_concat]
        show T.follow n _ ((parsePath text).parts ++ []) = _
        rw [List.append_nil]
      | cons c' cs' =>
        have hnext : T.link (onward cur c) = none := by
          have h' := h
          simp only [Disk.walk] at h'
          split at h'
          · rename_i hd'
            exact hT.dir_no_link _ hd'
          · cases h'
        rw [hnext]
        exact ih _ (List.cons_ne_nil _ _) h
    · cases h

/-- Where a path leads is no link: it is a folder, or has a proper name and lies in a folder. -/
theorem follow_place (hT : T.Sound) (n : Nat) (cur : Place) (hc : T.isDir cur = true) (parts : List (List Char)) (hs : ∀ m ∈ parts, '/' ∉ m)
    (l : Place) (h : T.follow n cur parts = .ok l) : T.link l = none ∧ (T.isDir l = true ∨ FilePlace T.isDir l) := by
  have main : ∀ n cur parts, (T.link cur = none ∧ (T.isDir cur = true ∨ FilePlace T.isDir cur)) → (∀ m ∈ parts, '/' ∉ m) →
      T.follow n cur parts = .ok l → T.link l = none ∧ (T.isDir l = true ∨ FilePlace T.isDir l) := by
    intro n cur parts
    induction n, cur, parts using LinkDisk.follow.induct T with
    | case1 n cur =>
      intro hc _ h
      rw [LinkDisk.follow] at h
      cases h
      exact hc
    | case2 n cur c cs hd hl ih =>
      intro hc hs h
      rw [LinkDisk.follow, if_pos hd, hl] at h
      refine ih ⟨hl, ?_⟩ (fun m hm => hs m (List.mem_cons_of_mem _ hm)) h
      by_cases hdir : T.isDir (onward cur c) = true
      · exact .inl hdir
      · right
        refine walk_place hT.tree cur hd [c] (fun m hm => hs m (by rw [List.mem_singleton.mp hm]; exact List.mem_cons_self)) _ ?_
          (by simpa using hdir)
        simp only [Disk.walk, hd, if_true]
    | case3 cur c cs hd text hl =>
      intro _ _ h
      rw [LinkDisk.follow, if_pos hd, hl] at h
      cases h
    | case4 cur c cs hd text hl n ih =>
      intro hc hs h
      rw [LinkDisk.follow, if_pos hd, hl] at h
      refine ih ?_ ?_ h
      · split_ifs
        · exact ⟨hT.root, .inl hT.tree.root⟩
        · exact ⟨hT.dir_no_link _ hd, .inl hd⟩
      · intro m hm
        rcases List.mem_append.mp hm with hm | hm
        · exact parse_parts _ m hm
        · exact hs m (List.mem_cons_of_mem _ hm)
    | case5 n cur c cs hd =>
      intro _ _ h
      rw [LinkDisk.follow, if_neg hd] at h
      cases h
  exact main n cur parts ⟨hT.dir_no_link _ hc, .inl hc⟩ hs h

theorem find_place (hT : T.Sound) (cwd : Place) (hc : T.isDir cwd = true) (p : PathStr) (l : Place)
    (h : T.find cwd (parsePath p) = .ok l) : T.link l = none ∧ (T.isDir l = true ∨ FilePlace T.isDir l) := by
  unfold LinkDisk.find at h
  split at h
  · cases h
  · refine follow_place hT 40 _ ?_ _ (parse_parts p) l h
    split_ifs
    · exact hT.tree.root
    · exact hc

/-- Without links nothing is new. -/
theorem follow_no_links (T : LinkDisk) (h : ∀ l, T.link l = none) (n : Nat) (cur : Place) (parts : List (List Char)) :
    T.follow n cur parts = T.toDisk.walk cur parts := by
  induction parts generalizing cur with
  | nil => rw [LinkDisk.follow]; rfl
  | cons c cs ih =>
    rw [LinkDisk.follow, h]
    simp only [Disk.walk, ih]

end

section
variable {F : Type} [FloatOps F] (H : Host F) (T : LinkDisk)

/-- C101: on a tree without links the model is the one of C95 to C99. -/
theorem links_none (h : ∀ l, T.link l = none) : H.linkWorld T = H.world T.toDisk := by
  have e : ∀ p, T.find H.cwd p = T.toDisk.find H.cwd p := by
    intro p
    unfold LinkDisk.find Disk.find
    rw [follow_no_links T h]
  unfold Host.linkWorld Host.world
  congr 1
  · funext p
    rw [e]
  · funext p
    unfold Disk.dirAt Disk.existsAt
    rw [e]
    cases T.toDisk.find H.cwd (parsePath p) <;> rfl
  · funext p
    unfold Host.canonicalize
    rw [e]
    cases T.toDisk.find H.cwd (parsePath p) <;> rfl

/-- Where an output is looked for: at its name in the output folder. -/
theorem link_output_path (hT : T.Sound) (output : Option PathStr) (dir : Place) (h1 : LinkOutputsIn H T output dir)
    (input stem ext suffix : List Char) (hs : '/' ∉ suffix) (hn : NamedAs input stem ext) :
    T.toDisk.find H.cwd (parsePath (OutName stem ext suffix (output.map fun _ => absolute dir))) =
      .ok (dir ++ [stem ++ '-' :: suffix ++ '.' :: ext]) := by
  have hp := output_name_proper input stem ext suffix hn hs
  cases output with
  | none =>
    have h1' : dir = H.cwd := h1.2
    subst h1'
    exact find_here T.toDisk _ h1.1 _ hp
  | some o => exact find_inside hT.tree _ dir h1.1 _ hp

/-- C101: an output whose name is not that of a link is in the folder where the `-o` path leads, links followed. -/
theorem link_output_there (hT : T.Sound) (output : Option PathStr) (dir : Place) (h1 : LinkOutputsIn H T output dir)
    (input stem ext suffix : List Char) (hs : '/' ∉ suffix) (hn : NamedAs input stem ext)
    (hl : T.link (dir ++ [stem ++ '-' :: suffix ++ '.' :: ext]) = none) :
    (H.linkWorld T).resolve (OutName stem ext suffix (output.map fun _ => absolute dir)) =
      some (dir ++ [stem ++ '-' :: suffix ++ '.' :: ext]) :=
  (toOption_eq_some _ _).mpr (find_plain hT _ _ _ (link_output_path H T hT output dir h1 input stem ext suffix hs hn) hl)

/-- C101: an output whose name is that of a link goes where the link leads, seen from the output folder. -/
theorem link_output_follows (hT : T.Sound) (output : Option PathStr) (dir : Place) (h1 : LinkOutputsIn H T output dir)
    (input stem ext suffix : List Char) (hs : '/' ∉ suffix) (hn : NamedAs input stem ext) (text : PathStr)
    (hl : T.link (dir ++ [stem ++ '-' :: suffix ++ '.' :: ext]) = some text) (l : Place) :
    (H.linkWorld T).resolve (OutName stem ext suffix (output.map fun _ => absolute dir)) = some l ↔
      ∃ k ≤ 39, LeadsTo T k (if (parsePath text).abs then [] else dir) (parsePath text).parts l := by
  have h := link_output_path H T hT output dir h1 input stem ext suffix hs hn
  show (T.find H.cwd _).toOption = some l ↔ _
  rw [toOption_eq_some, ← follow_iff]
  unfold Disk.find at h
  unfold LinkDisk.find
  split at h
  · cases h
  · rename_i hp
    rw [if_neg hp, follow_link hT 39 _ _ _ text ?_ h hl, List.dropLast_concat]
    intro hnil
    rw [hnil] at h
    have he : (if (parsePath (OutName stem ext suffix (output.map fun _ => absolute dir))).abs then [] else H.cwd) =
        dir ++ [stem ++ '-' :: suffix ++ '.' :: ext] := by
      exact Except.ok.inj h
    have hdir : T.isDir (dir ++ [stem ++ '-' :: suffix ++ '.' :: ext]) = false := (hT.apart _ (by rw [hl]; exact fun h => (by cases h))).1
    split_ifs at he with ha
    · simp at he
    · have hcw : T.isDir H.cwd = false := by rw [he]; exact hdir
      cases output with
      | none =>
        have h1' : dir = H.cwd := h1.2
        rw [← h1', h1.1] at hcw
        cases hcw
      | some o =>
        apply ha
        show (parsePath (absolute dir ++ ['/'] ++ (stem ++ '-' :: suffix ++ '.' :: ext))).abs = true
        unfold absolute
        split_ifs with h0
        · rfl
        · cases dir with
          | nil => exact absurd rfl h0
          | cons a b => rfl

end
end Sia
