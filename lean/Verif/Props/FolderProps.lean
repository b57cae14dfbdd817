import Verif.Lemmas.FileTreeLemmas

/-! C95: the output folder is made, and nothing else happens to the tree. -/
namespace Sia

section
variable {F : Type} (H : Host F)

theorem addDirs_isDir (D : Disk) (ls : List Place) (l : Place) :
    (D.addDirs ls).isDir l = true ↔ D.isDir l = true ∨ l ∈ ls := by
  induction ls generalizing D with
  | nil => simp [Disk.addDirs]
  | cons a ls ih =>
    have e : D.addDirs (a :: ls) = (D.addDir a).addDirs ls := rfl
    rw [e, ih]
    simp only [Disk.addDir, Bool.or_eq_true, decide_eq_true_eq, List.mem_cons]
    tauto

theorem addDirs_content (D : Disk) (ls : List Place) : (D.addDirs ls).content = D.content := by
  induction ls generalizing D with
  | nil => rfl
  | cons a ls ih => exact (ih (D.addDir a)).trans rfl

theorem addDirs_grows (D : Disk) (ls : List Place) : D.Grows (D.addDirs ls) :=
  ⟨fun l h => (addDirs_isDir D ls l).mpr (Or.inl h), addDirs_content D ls⟩

theorem addDirs_append (D : Disk) (a b : List Place) : D.addDirs (a ++ b) = (D.addDirs a).addDirs b := by
  simp [Disk.addDirs]

theorem rdropWhile_split {α : Type} (f : α → Bool) (l : List α) : ∃ t, l = l.rdropWhile f ++ t ∧ ∀ x ∈ t, f x = true :=
  ⟨l.rtakeWhile f, List.rdropWhile_append_rtakeWhile.symm, fun _ hx => List.mem_rtakeWhile_imp hx⟩

/-- The parent path is a first part of the path. -/
theorem trim_prefix (p : RawPath) : p.trim <+: p.parts := by
  obtain ⟨abs, parts⟩ := p
  unfold RawPath.trim
  split
  · rename_i rest _ h
    simp only at h
    subst h
    exact (List.prefix_cons_inj _).mpr (List.rdropWhile_prefix _ _)
  · exact List.rdropWhile_prefix _ _

theorem parent_prefix (p q : RawPath) (h : p.parent = some q) : q.abs = p.abs ∧ q.parts <+: p.parts := by
  unfold RawPath.parent at h
  split at h
  · cases h
  · cases h
    exact ⟨rfl, (trim_prefix _).trans ((List.dropLast_prefix _).trans (trim_prefix p))⟩

/-- A folder made by one system call: it is new, lies in a folder, and the path leads there. -/
theorem mkdir_ok (D : Disk) (p : RawPath) (hp : ∀ m ∈ p.parts, '/' ∉ m) (l : Place) (h : H.mkdir D p = .ok l) :
    ∃ dir last init rest, l = dir ++ [last] ∧ D.isDir dir = true ∧ D.occupied l = false ∧ H.allowed l = true ∧ ProperName last ∧
      p.parts = init ++ [last] ++ rest ∧ (∀ x ∈ rest, x = []) ∧ D.walk (if p.abs then [] else H.cwd) init = .ok dir := by
  unfold Host.mkdir at h
  split at h
  · cases h
  · dsimp only at h
    obtain ⟨t, ht, htn⟩ := rdropWhile_split (fun x : List Char => decide (x = [])) p.parts
    set parts := p.parts.rdropWhile fun x => decide (x = []) with hparts
    split at h
    · cases h
    · rename_i last hlast
      have hne : parts ≠ [] := by rintro e; rw [e] at hlast; simp at hlast
      have hl : parts = parts.dropLast ++ [last] := by
        have := List.dropLast_append_getLast hne
        rw [List.getLast?_eq_some_getLast hne] at hlast
        cases hlast
        exact this.symm
      have hlne : last ≠ [] := by
        have h1 := List.rdropWhile_last_not (fun x : List Char => decide (x = [])) p.parts (hparts ▸ hne)
        rw [List.getLast?_eq_some_getLast hne] at hlast
        cases hlast
        simpa using h1
      have hlm : last ∈ p.parts := by
        rw [ht, hl]
        simp
      split at h
      · cases h
      · rename_i dir hdir
        split at h
        · rename_i hd
          split at h
          · cases h
          · rename_i hdots
            split at h
            · cases h
            · rename_i hocc
              split at h
              · rename_i hall
                cases h
                refine ⟨dir, last, parts.dropLast, t, rfl, hd, by simpa using hocc, hall, ⟨hlne, hp last hlm, ?_, ?_⟩, ?_, ?_, hdir⟩
                · exact fun e => hdots (Or.inl e)
                · exact fun e => hdots (Or.inr e)
                · rw [← hl]
                  exact ht
                · intro x hx
                  simpa using htn x hx
              · cases h
        · cases h

theorem addDir_sound {D : Disk} (hD : D.Sound) (dir : Place) (last : List Char) (hd : D.isDir dir = true) (hl : ProperName last)
    (ho : D.occupied (dir ++ [last]) = false) : (D.addDir (dir ++ [last])).Sound where
  root := by simp [Disk.addDir, hD.root]
  inside l n h := by
    simp only [Disk.addDir, Bool.or_eq_true, decide_eq_true_eq] at h ⊢
    rcases h with (h | h) | h
    · obtain ⟨rfl, h2⟩ := List.append_inj' h rfl
      cases h2
      exact ⟨Or.inr hd, hl⟩
    · exact ⟨Or.inr (hD.inside l n (Or.inl h)).1, (hD.inside l n (Or.inl h)).2⟩
    · exact ⟨Or.inr (hD.inside l n (Or.inr h)).1, (hD.inside l n (Or.inr h)).2⟩
  apart l h := by
    simp only [Disk.addDir, Bool.or_eq_true, decide_eq_true_eq] at h ⊢
    rcases h with rfl | h
    · simp only [Disk.occupied, Bool.or_eq_false_iff] at ho
      simpa using ho.2
    · exact hD.apart l h

theorem walk_empties (D : Disk) (cur : Place) (h : D.isDir cur = true) (rest : List (List Char)) (hr : ∀ x ∈ rest, x = []) :
    D.walk cur rest = .ok cur := by
  induction rest with
  | nil => rfl
  | cons c rest ih =>
    have hc := hr c List.mem_cons_self
    subst hc
    simp only [Disk.walk, h, if_true]
    have : onward cur [] = cur := by simp [onward]
    rw [this]
    exact ih fun x hx => hr x (List.mem_cons_of_mem _ hx)

/-- After the call the path leads to the new folder. -/
theorem mkdir_leads (D D' : Disk) (p : RawPath) (hp : ∀ m ∈ p.parts, '/' ∉ m) (l : Place) (h : H.mkdir D p = .ok l)
    (hg : ∀ m, D.isDir m = true → D'.isDir m = true) (hl : D'.isDir l = true) :
    D'.find H.cwd p = .ok l ∧ ∃ parts, parts <+: p.parts ∧ D'.walk (if p.abs then [] else H.cwd) parts = .ok l := by
  obtain ⟨dir, last, init, rest, rfl, h2, h3, h4, h5, h6, h7, h8⟩ := mkdir_ok H D p hp l h
  have hw : D'.walk (if p.abs then [] else H.cwd) (init ++ [last]) = .ok (dir ++ [last]) := by
    rw [walk_append, walk_grows hg h8]
    show D'.walk dir [last] = _
    simp only [Disk.walk, hg _ h2, if_true]
    rw [onward_proper _ _ h5]
  refine ⟨?_, init ++ [last], ⟨rest, h6.symm⟩, hw⟩
  unfold Disk.find
  have he : p.isEmpty = false := by
    unfold RawPath.isEmpty
    rw [h6]
    simp
  rw [he]
  simp only [Bool.false_eq_true, if_false]
  rw [h6, walk_append, hw]
  exact walk_empties D' _ hl rest h7

/-- C95: making the output folder only adds folders, each in a folder that is there already, so that the tree is a sound tree after any
number of them; each new folder lies on the way the path describes; and if there is no error the path then leads to a folder. -/
theorem folders_made (D : Disk) (hD : D.Sound) (p : RawPath) (hp : ∀ m ∈ p.parts, '/' ∉ m) :
    (∀ n, (D.addDirs ((H.createDirAll D p).1.take n)).Sound ∧ D.Grows (D.addDirs ((H.createDirAll D p).1.take n))) ∧
    (∀ l ∈ (H.createDirAll D p).1, D.occupied l = false ∧ H.allowed l = true ∧
      ∃ parts, parts <+: p.parts ∧ (D.addDirs (H.createDirAll D p).1).walk (if p.abs then [] else H.cwd) parts = .ok l) ∧
    ((H.createDirAll D p).2 = none → p.isEmpty = false → (D.addDirs (H.createDirAll D p).1).dirAt H.cwd p = true) := by
  suffices h : (∀ n, (D.addDirs ((H.createDirAll D p).1.take n)).Sound) ∧
    (∀ l ∈ (H.createDirAll D p).1, D.occupied l = false ∧ H.allowed l = true ∧
      ∃ parts, parts <+: p.parts ∧ (D.addDirs (H.createDirAll D p).1).walk (if p.abs then [] else H.cwd) parts = .ok l) ∧
    ((H.createDirAll D p).2 = none → p.isEmpty = false → (D.addDirs (H.createDirAll D p).1).dirAt H.cwd p = true) from
    ⟨fun n => ⟨h.1 n, addDirs_grows _ _⟩, h.2⟩
  have none_made : (∀ n, (D.addDirs (([] : List Place).take n)).Sound) := by
    intro n
    rw [List.take_nil]
    exact hD
  induction hn : p.parts.length using Nat.strong_induction_on generalizing p with
  | _ n ih =>
  unfold Host.createDirAll
  split
  · rename_i he
    refine ⟨none_made, by simp, fun _ h => ?_⟩
    rw [he] at h
    cases h
  · rename_i he
    split
    · rename_i l hl
      obtain ⟨dir, last, init, rest, e1, h2, h3, h4, h5, h6, h7, h8⟩ := mkdir_ok H D p hp l hl
      have hlead := mkdir_leads H D (D.addDirs [l]) p hp l hl (addDirs_grows D [l]).1 ((addDirs_isDir D [l] l).mpr (by simp))
      refine ⟨fun n => ?_, ?_, fun _ _ => ?_⟩
      · rcases n with _ | n
        · exact hD
        · rw [List.take_of_length_le (by simp)]
          subst e1
          exact addDir_sound hD dir last h2 h5 h3
      · intro m hm
        cases List.mem_singleton.mp hm
        exact ⟨h3, h4, hlead.2⟩
      · unfold Disk.dirAt
        rw [hlead.1]
        exact (addDirs_isDir D [l] l).mpr (by simp)
    · rename_i hnf
      split
      · exact ⟨none_made, by simp, fun h => by cases h⟩
      · rename_i q hq
        obtain ⟨qa, qp⟩ := parent_prefix p q hq
        obtain ⟨i1, i2, i3⟩ := ih q.parts.length (hn ▸ RawPath.parent_length p q hq) q (fun m hm => hp m (qp.subset hm)) rfl
        split
        · rename_i ls e hr
          rw [hr] at i1 i2 i3
          refine ⟨i1, fun l hl => ?_, fun h => by cases h⟩
          obtain ⟨j1, j2, parts, j3, j4⟩ := i2 l hl
          exact ⟨j1, j2, parts, j3.trans qp, qa ▸ j4⟩
        · rename_i ls hr
          rw [hr] at i1 i2 i3
          have hS : (D.addDirs ls).Sound := by
            have := i1 ls.length
            rwa [List.take_length] at this
          split
          · rename_i l hl
            obtain ⟨dir, last, init, rest, e1, h2, h3, h4, h5, h6, h7, h8⟩ := mkdir_ok H (D.addDirs ls) p hp l hl
            have hg : ∀ m, (D.addDirs ls).isDir m = true → (D.addDirs (ls ++ [l])).isDir m = true := by
              intro m hm
              rw [addDirs_append]
              exact (addDirs_grows _ _).1 m hm
            have hlead := mkdir_leads H (D.addDirs ls) (D.addDirs (ls ++ [l])) p hp l hl hg ((addDirs_isDir D _ l).mpr (by simp))
            refine ⟨fun n => ?_, ?_, fun _ _ => ?_⟩
            · rcases Nat.lt_or_ge ls.length n with hlt | hge
              · rw [List.take_of_length_le (by simp; omega), addDirs_append]
                subst e1
                exact addDir_sound hS dir last h2 h5 h3
              · rw [List.take_append_of_le_length hge]
                exact i1 n
            · intro m hm
              rcases List.mem_append.mp hm with hm | hm
              · obtain ⟨j1, j2, parts, j3, j4⟩ := i2 m hm
                exact ⟨j1, j2, parts, j3.trans qp, walk_grows hg (qa ▸ j4)⟩
              · cases List.mem_singleton.mp hm
                refine ⟨?_, h4, hlead.2⟩
                simp only [Disk.occupied, Bool.or_eq_false_iff] at h3 ⊢
                refine ⟨?_, ?_⟩
                · have := h3.1
                  rw [Bool.eq_false_iff] at this ⊢
                  exact fun hd => this ((addDirs_isDir D ls _).mpr (Or.inl hd))
                · rw [← addDirs_content D ls]
                  exact h3.2
            · unfold Disk.dirAt
              rw [hlead.1]
              exact (addDirs_isDir D _ l).mpr (by simp)
          · rename_i e he'
            have hls : ∀ l ∈ ls, D.occupied l = false ∧ H.allowed l = true ∧
                ∃ parts, parts <+: p.parts ∧ (D.addDirs ls).walk (if p.abs then [] else H.cwd) parts = .ok l := by
              intro l hl
              obtain ⟨j1, j2, parts, j3, j4⟩ := i2 l hl
              exact ⟨j1, j2, parts, j3.trans qp, qa ▸ j4⟩
            split
            · rename_i hd
              exact ⟨i1, hls, fun _ _ => hd⟩
            · exact ⟨i1, hls, fun h => by cases h⟩
    · split
      · rename_i hd
        exact ⟨none_made, by simp, fun _ _ => hd⟩
      · exact ⟨none_made, by simp, fun h => by cases h⟩

/-- One system call on a path of proper names. -/
theorem mkdir_plain (D : Disk) (abs : Bool) (names : List (List Char)) (n : List Char) (hn : ProperName n) :
    H.mkdir D ⟨abs, names ++ [n]⟩ = match D.walk (if abs then [] else H.cwd) names with
      | .error e => .error e
      | .ok dir => if D.isDir dir then
          if D.occupied (dir ++ [n]) then .error .alreadyExists else if H.allowed (dir ++ [n]) then .ok (dir ++ [n]) else .error .refused
        else .error (D.noFolder dir) := by
  unfold Host.mkdir
  have he : RawPath.isEmpty ⟨abs, names ++ [n]⟩ = false := by simp [RawPath.isEmpty]
  rw [he]
  simp only [Bool.false_eq_true, if_false]
  have hr : (names ++ [n]).rdropWhile (fun x => decide (x = [])) = names ++ [n] :=
    List.rdropWhile_concat_neg _ _ _ (by simpa using hn.1)
  rw [hr]
  simp only [List.getLast?_append, List.getLast?_singleton, Option.some_or, List.dropLast_concat]
  have hdots : ¬ (n = ['.'] ∨ n = ['.', '.']) := by
    rintro (h | h)
    · exact hn.2.2.1 h
    · exact hn.2.2.2 h
  simp only [hdots, if_false]
  cases D.walk (if abs = true then [] else H.cwd) names <;> rfl

theorem trim_proper (abs : Bool) (names : List (List Char)) (hn : ∀ n ∈ names, ProperName n) : RawPath.trim ⟨abs, names⟩ = names := by
  have hr : names.rdropWhile idlePart = names := by
    rcases List.eq_nil_or_concat names with rfl | ⟨a, b, rfl⟩
    · rfl
    · have hb := hn b (by simp)
      rw [List.concat_eq_append]
      refine List.rdropWhile_concat_neg _ _ _ ?_
      simp [idlePart, hb.1, hb.2.2.1]
  unfold RawPath.trim
  split
  · rename_i rest _ h
    simp only at h
    subst h
    exact absurd rfl (hn ['.'] List.mem_cons_self).2.2.1
  · exact hr

theorem parent_plain (abs : Bool) (names : List (List Char)) (n : List Char) (hn : ∀ m ∈ names ++ [n], ProperName m) :
    RawPath.parent ⟨abs, names ++ [n]⟩ = some ⟨abs, names⟩ := by
  unfold RawPath.parent
  rw [trim_proper abs _ hn]
  rw [if_neg (by simp)]
  simp only [List.dropLast_concat]
  rw [trim_proper abs names fun m hm => hn m (List.mem_append_left _ hm)]

theorem walk_missing (D : Disk) (cur : Place) (names : List (List Char)) (hn : ∀ n ∈ names, ProperName n)
    (hf : ∀ k < names.length, D.content (cur ++ names.take k) = none) (hd : ∃ k < names.length, D.isDir (cur ++ names.take k) = false) :
    D.walk cur names = .error .notFound := by
  induction names generalizing cur with
  | nil =>
    obtain ⟨k, hk, _⟩ := hd
    simp at hk
  | cons n names ih =>
    simp only [Disk.walk]
    by_cases h0 : D.isDir cur = true
    · simp only [h0, if_true]
      rw [onward_proper _ _ (hn n List.mem_cons_self)]
      refine ih _ (fun m hm => hn m (List.mem_cons_of_mem _ hm)) (fun k hk => ?_) ?_
      · simpa using hf (k + 1) (by simpa using hk)
      · obtain ⟨k, hk, hk'⟩ := hd
        rcases k with _ | k
        · simp [h0] at hk'
        · exact ⟨k, by simpa using hk, by simpa using hk'⟩
    · have h1 := hf 0 (by simp)
      simp only [List.take_zero, List.append_nil] at h1
      simp [h0, Disk.noFolder, h1]

theorem content_above (D : Disk) (hD : D.Sound) (l m : Place) (hm : m ≠ []) (h : D.content (l ++ m) ≠ none) : D.isDir l = true := by
  rcases List.eq_nil_or_concat m with rfl | ⟨a, b, rfl⟩
  · exact absurd rfl hm
  · rw [List.concat_eq_append, ← List.append_assoc] at h
    exact hD.above l a (hD.inside _ _ (Or.inr h)).1

theorem walk_file (D : Disk) (hD : D.Sound) (cur : Place) (names : List (List Char)) (hn : ∀ n ∈ names, ProperName n) (k : Nat)
    (hk : k < names.length) (hf : D.content (cur ++ names.take k) ≠ none) : D.walk cur names = .error .notDir := by
  induction names generalizing cur k with
  | nil => simp at hk
  | cons n names ih =>
    simp only [Disk.walk]
    rcases k with _ | k
    · simp only [List.take_zero, List.append_nil] at hf
      have h0 : D.isDir cur = false := by
        rw [Bool.eq_false_iff]
        exact fun h => hf (hD.apart _ h)
      obtain ⟨c, hc⟩ := Option.ne_none_iff_exists'.mp hf
      simp [h0, Disk.noFolder, hc]
    · have h0 : D.isDir cur = true := by
        exact content_above D hD cur _ (by simp) hf
      simp only [h0, if_true]
      rw [onward_proper _ _ (hn n List.mem_cons_self)]
      exact ih _ (fun m hm => hn m (List.mem_cons_of_mem _ hm)) k (by simpa using hk) (by simpa using hf)

theorem made_ok (D : Disk) (p : RawPath) (he : p.isEmpty = false) (l : Place) (h : H.mkdir D p = .ok l) :
    H.createDirAll D p = ([l], none) := by
  rw [Host.createDirAll, he, h]
  rfl

theorem made_error (D : Disk) (p : RawPath) (he : p.isEmpty = false) (e : Trouble) (hne : e ≠ .notFound) (h : H.mkdir D p = .error e) :
    H.createDirAll D p = if D.dirAt H.cwd p then ([], none) else ([], some e) := by
  rw [Host.createDirAll, he, h]
  cases e
  · exact absurd rfl hne
  · rfl
  · rfl
  · rfl

theorem made_deeper (D : Disk) (p q : RawPath) (he : p.isEmpty = false) (h : H.mkdir D p = .error .notFound) (hq : p.parent = some q) :
    H.createDirAll D p = match H.createDirAll D q with
      | (ls, some e) => (ls, some e)
      | (ls, none) => match H.mkdir (D.addDirs ls) p with
        | .ok l => (ls ++ [l], none)
        | .error e => if (D.addDirs ls).dirAt H.cwd p then (ls, none) else (ls, some e) := by
  rw [Host.createDirAll, he, h]
  simp only [Bool.false_eq_true, if_false]
  split
  · rename_i hn
    rw [hq] at hn
    cases hn
  · rename_i q' hq'
    rw [hq] at hq'
    cases hq'
    rfl

theorem made_nothing (D : Disk) (hD : D.Sound) (abs : Bool) : H.createDirAll D ⟨abs, []⟩ = ([], none) := by
  cases abs
  · rw [Host.createDirAll]
    rfl
  · rw [made_error H D ⟨true, []⟩ rfl .alreadyExists (by decide) rfl]
    have : D.dirAt H.cwd ⟨true, []⟩ = true := hD.root
    rw [this]
    rfl

/-- C95: a path of proper names can be made a folder exactly if no file is in the way and the system allows what is missing. Then exactly
the folders on the way that are missing are made; if a file is in the way, nothing is made. -/
theorem folder_made_iff (D : Disk) (hD : D.Sound) (abs : Bool) (names : List (List Char)) (hn : ∀ n ∈ names, ProperName n)
    (hc : D.isDir H.cwd = true) :
    let base := if abs then [] else H.cwd
    let made := H.createDirAll D ⟨abs, names⟩
    (made.2 = none ↔ ∀ k ≤ names.length, D.content (base ++ names.take k) = none ∧
      (D.isDir (base ++ names.take k) = true ∨ H.allowed (base ++ names.take k) = true)) ∧
    (made.2 = none → ∀ l, l ∈ made.1 ↔ D.isDir l = false ∧ ∃ k ≤ names.length, l = base ++ names.take k) ∧
    ((∃ k ≤ names.length, D.content (base ++ names.take k) ≠ none) → made.1 = []) := by
  intro base
  have hbase : D.isDir base = true := by
    show D.isDir (if abs then [] else H.cwd) = true
    cases abs
    · exact hc
    · exact hD.root
  suffices h : let made := H.createDirAll D ⟨abs, names⟩
      ((∀ k ≤ names.length, D.content (base ++ names.take k) = none ∧
        (D.isDir (base ++ names.take k) = true ∨ H.allowed (base ++ names.take k) = true)) →
        made.2 = none ∧ ∀ l, l ∈ made.1 ↔ D.isDir l = false ∧ ∃ k ≤ names.length, l = base ++ names.take k) ∧
      ((∃ k ≤ names.length, D.content (base ++ names.take k) ≠ none) → made.2 ≠ none ∧ made.1 = []) ∧
      ((∃ k ≤ names.length, D.isDir (base ++ names.take k) = false ∧ H.allowed (base ++ names.take k) = false) → made.2 ≠ none) by
    intro made
    obtain ⟨h1, h2, h3⟩ := h
    have hiff : made.2 = none → ∀ k ≤ names.length, D.content (base ++ names.take k) = none ∧
      (D.isDir (base ++ names.take k) = true ∨ H.allowed (base ++ names.take k) = true) := by
      intro hm k hk
      refine ⟨?_, ?_⟩
      · by_contra hcon
        exact (h2 ⟨k, hk, hcon⟩).1 hm
      · by_contra hcon
        rw [not_or, Bool.not_eq_true, Bool.not_eq_true] at hcon
        exact h3 ⟨k, hk, hcon⟩ hm
    exact ⟨⟨hiff, fun h => (h1 h).1⟩, fun hm => (h1 (hiff hm)).2, fun hf => (h2 hf).2⟩
  have hb : (if abs = true then [] else H.cwd) = base := rfl
  clear_value base
  induction names using List.reverseRecOn with
  | nil =>
    rw [made_nothing H D hD abs]
    refine ⟨fun _ => ⟨rfl, fun l => ?_⟩, ?_, ?_⟩
    · constructor
      · intro h
        cases h
      · rintro ⟨h, k, _, rfl⟩
        simp [hbase] at h
    · rintro ⟨k, _, h⟩
      refine absurd (hD.apart base hbase) ?_
      simpa using h
    · rintro ⟨k, _, h, _⟩
      simp [hbase] at h
  | append_singleton names n ih =>
    have hn1 : ∀ m ∈ names, ProperName m := fun m hm => hn m (List.mem_append_left _ hm)
    have hn2 : ProperName n := hn n (by simp)
    obtain ⟨ihA, ihB, ihC⟩ := ih hn1
    have he : RawPath.isEmpty ⟨abs, names ++ [n]⟩ = false := by simp [RawPath.isEmpty]
    have hmk := fun D => mkdir_plain H D abs names n hn2
    rw [hb] at hmk
    have htake : ∀ k ≤ names.length, (names ++ [n]).take k = names.take k := fun k hk => List.take_append_of_le_length hk
    have hall : (names ++ [n]).take (names.length + 1) = names ++ [n] := List.take_of_length_le (by simp)
    have hsplit : ∀ P : Place → Prop, (∃ k ≤ (names ++ [n]).length, P (base ++ (names ++ [n]).take k)) ↔
        (∃ k ≤ names.length, P (base ++ names.take k)) ∨ P (base ++ names ++ [n]) := by
      intro P
      constructor
      · rintro ⟨k, hk, h⟩
        rw [List.length_append, List.length_singleton] at hk
        rcases Nat.lt_or_ge names.length k with hlt | hge
        · right
          have : k = names.length + 1 := by omega
          rw [this, hall, ← List.append_assoc] at h
          exact h
        · left
          rw [htake k hge] at h
          exact ⟨k, hge, h⟩
      · rintro (⟨k, hk, h⟩ | h)
        · exact ⟨k, by simp; omega, by rw [htake k hk]; exact h⟩
        · exact ⟨names.length + 1, by simp, by rw [hall, ← List.append_assoc]; exact h⟩
    have hsplitA : (∀ k ≤ (names ++ [n]).length, D.content (base ++ (names ++ [n]).take k) = none ∧
          (D.isDir (base ++ (names ++ [n]).take k) = true ∨ H.allowed (base ++ (names ++ [n]).take k) = true)) →
        (∀ k ≤ names.length, D.content (base ++ names.take k) = none ∧
          (D.isDir (base ++ names.take k) = true ∨ H.allowed (base ++ names.take k) = true)) ∧
        D.content (base ++ names ++ [n]) = none ∧
          (D.isDir (base ++ names ++ [n]) = true ∨ H.allowed (base ++ names ++ [n]) = true) := by
      intro h
      refine ⟨fun k hk => ?_, ?_⟩
      · have := h k (by simp; omega)
        rwa [htake k hk] at this
      · have := h (names.length + 1) (by simp)
        rwa [hall, ← List.append_assoc] at this
    have hdirAt : ∀ D' : Disk, D'.walk base names = .ok (base ++ names) → D'.isDir (base ++ names) = true →
        D'.dirAt H.cwd ⟨abs, names ++ [n]⟩ = D'.isDir (base ++ names ++ [n]) := by
      intro D' hw hd
      unfold Disk.dirAt Disk.find
      rw [he]
      simp only [Bool.false_eq_true, if_false]
      rw [hb, walk_append, hw]
      show (match D'.walk (base ++ names) [n] with | .ok l => D'.isDir l | .error _ => false) = _
      simp only [Disk.walk, hd, if_true]
      rw [onward_proper _ _ hn2]
    rw [hsplit (fun l => D.content l ≠ none), hsplit (fun l => D.isDir l = false ∧ H.allowed l = false)]
    have hmem : ∀ l : Place, (∃ k ≤ (names ++ [n]).length, l = base ++ (names ++ [n]).take k) ↔
        (∃ k ≤ names.length, l = base ++ names.take k) ∨ l = base ++ names ++ [n] := fun l => hsplit (fun m => l = m)
    by_cases hd : D.isDir (base ++ names) = true
    · have hpre : ∀ k ≤ names.length, D.isDir (base ++ names.take k) = true := by
        intro k _
        refine hD.above _ (names.drop k) ?_
        rw [List.append_assoc, List.take_append_drop]
        exact hd
      have hw : D.walk base names = .ok (base ++ names) := walk_down D base names hn1 fun k hk => hpre k hk.le
      have hmk' := hmk D
      rw [hw] at hmk'
      simp only [hd, if_true] at hmk'
      have hdA := hdirAt D hw hd
      have hempty : ∀ l : Place, D.isDir l = false → ¬ ∃ k ≤ names.length, l = base ++ names.take k := by
        rintro l hl ⟨k, hk, rfl⟩
        rw [hpre k hk] at hl
        cases hl
      by_cases hdn : D.isDir (base ++ names ++ [n]) = true
      · have hocc : D.occupied (base ++ names ++ [n]) = true := by unfold Disk.occupied; rw [hdn]; rfl
        rw [hocc, if_pos rfl] at hmk'
        have hmade := made_error H D _ he _ (by decide) hmk'
        rw [hdA, hdn, if_pos rfl] at hmade
        rw [hmade]
        refine ⟨fun _ => ⟨rfl, fun l => ?_⟩, ?_, ?_⟩
        · rw [hmem]
          constructor
          · intro h
            cases h
          · rintro ⟨h1, h2 | rfl⟩
            · exact absurd h2 (hempty l h1)
            · rw [hdn] at h1
              cases h1
        · rintro (⟨k, hk, h⟩ | h)
          · exact absurd (hD.apart _ (hpre k hk)) h
          · exact absurd (hD.apart _ hdn) h
        · rintro (⟨k, hk, h, _⟩ | ⟨h, _⟩)
          · rw [hpre k hk] at h
            cases h
          · rw [hdn] at h
            cases h
      · rw [Bool.not_eq_true] at hdn
        by_cases hfn : D.content (base ++ names ++ [n]) = none
        · have hocc : D.occupied (base ++ names ++ [n]) = false := by unfold Disk.occupied; rw [hdn, hfn]; rfl
          rw [hocc] at hmk'
          simp only [Bool.false_eq_true, if_false] at hmk'
          by_cases hal : H.allowed (base ++ names ++ [n]) = true
          · rw [hal, if_pos rfl] at hmk'
            rw [made_ok H D _ he _ hmk']
            refine ⟨fun _ => ⟨rfl, fun l => ?_⟩, ?_, ?_⟩
            · rw [hmem, List.mem_singleton]
              constructor
              · rintro rfl
                exact ⟨hdn, Or.inr rfl⟩
              · rintro ⟨h1, h2 | h2⟩
                · exact absurd h2 (hempty l h1)
                · exact h2
            · rintro (⟨k, hk, h⟩ | h)
              · exact absurd (hD.apart _ (hpre k hk)) h
              · exact absurd hfn h
            · rintro (⟨k, hk, h, _⟩ | ⟨_, h⟩)
              · rw [hpre k hk] at h
                cases h
              · rw [hal] at h
                cases h
          · rw [if_neg hal] at hmk'
            have hmade := made_error H D _ he _ (by decide) hmk'
            rw [hdA, hdn] at hmade
            simp only [Bool.false_eq_true, if_false] at hmade
            rw [hmade]
            refine ⟨fun h => ?_, fun _ => ⟨by simp, rfl⟩, fun _ => by simp⟩
            rcases ((hsplitA h).2).2 with h' | h'
            · rw [hdn] at h'
              cases h'
            · exact absurd h' hal
        · have hocc : D.occupied (base ++ names ++ [n]) = true := by
            obtain ⟨c, hc'⟩ := Option.ne_none_iff_exists'.mp hfn
            unfold Disk.occupied
            rw [hc', Option.isSome_some, Bool.or_true]
          rw [hocc, if_pos rfl] at hmk'
          have hmade := made_error H D _ he _ (by decide) hmk'
          rw [hdA, hdn] at hmade
          simp only [Bool.false_eq_true, if_false] at hmade
          rw [hmade]
          exact ⟨fun h => absurd (hsplitA h).2.1 hfn, fun _ => ⟨by simp, rfl⟩, fun _ => by simp⟩
    · rw [Bool.not_eq_true] at hd
      have hbelow : D.isDir (base ++ names ++ [n]) = false ∧ D.content (base ++ names ++ [n]) = none := by
        constructor
        · rw [Bool.eq_false_iff]
          intro h
          rw [(hD.inside _ _ (Or.inl h)).1] at hd
          cases hd
        · by_contra h
          rw [(hD.inside _ _ (Or.inr h)).1] at hd
          cases hd
      by_cases hfile : ∃ k ≤ names.length, D.content (base ++ names.take k) ≠ none
      · have hmk' : H.mkdir D ⟨abs, names ++ [n]⟩ = .error .notDir := by
          obtain ⟨k, hk, h⟩ := hfile
          rw [hmk D]
          rcases Nat.lt_or_ge k names.length with hlt | hge
          · rw [walk_file D hD base names hn1 k hlt h]
          · have hk' : k = names.length := by omega
            rw [hk', List.take_length] at h
            have hup : ∀ j < names.length, D.isDir (base ++ names.take j) = true := by
              intro j hj
              refine content_above D hD _ (names.drop j) ?_ ?_
              · intro h0
                have := congrArg List.length h0
                simp at this
                omega
              · rw [List.append_assoc, List.take_append_drop]
                exact h
            rw [walk_down D base names hn1 hup]
            obtain ⟨c, hc'⟩ := Option.ne_none_iff_exists'.mp h
            simp [hd, Disk.noFolder, hc']
        have hno : D.dirAt H.cwd ⟨abs, names ++ [n]⟩ = false := by
          unfold Disk.dirAt Disk.find
          rw [he]
          simp only [Bool.false_eq_true, if_false]
          rw [hb]
          split
          · rename_i m hm
            rw [walk_append] at hm
            split at hm
            · rename_i l hl
              simp only [Disk.walk] at hm
              split at hm
              · rename_i hl'
                obtain ⟨k, hk, h⟩ := hfile
                rcases Nat.lt_or_ge k names.length with hlt | hge
                · rw [walk_file D hD base names hn1 k hlt h] at hl
                  cases hl
                · exfalso
                  have := hmk D
                  rw [hmk', hl] at this
                  simp only [hl', if_true] at this
                  split at this
                  · cases this
                  · split at this <;> cases this
              · cases hm
            · cases hm
          · rfl
        have hmade := made_error H D _ he _ (by decide) hmk'
        rw [hno] at hmade
        simp only [Bool.false_eq_true, if_false] at hmade
        rw [hmade]
        refine ⟨fun h => ?_, fun _ => ⟨by simp, rfl⟩, fun _ => by simp⟩
        obtain ⟨k, hk, h'⟩ := hfile
        exact absurd ((hsplitA h).1 k hk).1 h'
      · have hnofile : ∀ k ≤ names.length, D.content (base ++ names.take k) = none := by
          intro k hk
          by_contra h
          exact hfile ⟨k, hk, h⟩
        have hmk' : H.mkdir D ⟨abs, names ++ [n]⟩ = .error .notFound := by
          rw [hmk D]
          by_cases hup : ∀ k < names.length, D.isDir (base ++ names.take k) = true
          · rw [walk_down D base names hn1 hup]
            have := hnofile names.length le_rfl
            rw [List.take_length] at this
            simp [hd, Disk.noFolder, this]
          · push Not at hup
            obtain ⟨k, hk, h⟩ := hup
            rw [walk_missing D base names hn1 (fun k hk => hnofile k hk.le) ⟨k, hk, by simpa using h⟩]
        have hmade := made_deeper H D _ ⟨abs, names⟩ he hmk' (parent_plain abs names n hn)
        rw [hmade]
        rcases hrec : H.createDirAll D ⟨abs, names⟩ with ⟨ls, r⟩
        rw [hrec] at ihA ihB ihC
        cases r with
        | some e =>
          refine ⟨fun h => ?_, ?_, fun _ => by simp⟩
          · have := (ihA (hsplitA h).1).1
            cases this
          · rintro (h | h)
            · exact absurd h hfile
            · exact absurd hbelow.2 h
        | none =>
          have hok : ∀ k ≤ names.length, D.isDir (base ++ names.take k) = true ∨ H.allowed (base ++ names.take k) = true := by
            intro k hk
            by_contra h
            rw [not_or, Bool.not_eq_true, Bool.not_eq_true] at h
            exact ihC ⟨k, hk, h⟩ rfl
          obtain ⟨_, hls⟩ := ihA fun k hk => ⟨hnofile k hk, hok k hk⟩
          have hnew : ∀ k ≤ names.length, (D.addDirs ls).isDir (base ++ names.take k) = true := by
            intro k hk
            rw [addDirs_isDir]
            by_cases h : D.isDir (base ++ names.take k) = true
            · exact Or.inl h
            · exact Or.inr ((hls _).mpr ⟨by simpa using h, k, hk, rfl⟩)
          have hd' : (D.addDirs ls).isDir (base ++ names) = true := by
            have := hnew names.length le_rfl
            rwa [List.take_length] at this
          have hw' : (D.addDirs ls).walk base names = .ok (base ++ names) := walk_down _ base names hn1 fun k hk => hnew k hk.le
          have hnl : base ++ names ++ [n] ∉ ls := by
            intro h
            obtain ⟨_, k, hk, e⟩ := (hls _).mp h
            have := congrArg List.length e
            simp at this
            omega
          have hdn' : (D.addDirs ls).isDir (base ++ names ++ [n]) = false := by
            rw [Bool.eq_false_iff]
            intro h
            rcases (addDirs_isDir D ls _).mp h with h | h
            · rw [hbelow.1] at h
              cases h
            · exact hnl h
          have hocc : (D.addDirs ls).occupied (base ++ names ++ [n]) = false := by
            unfold Disk.occupied
            rw [hdn', addDirs_content, hbelow.2]
            rfl
          have hmk2 := hmk (D.addDirs ls)
          rw [hw'] at hmk2
          simp only [hd', if_true, hocc, Bool.false_eq_true, if_false] at hmk2
          by_cases hal : H.allowed (base ++ names ++ [n]) = true
          · rw [hal, if_pos rfl] at hmk2
            dsimp only
            rw [hmk2]
            refine ⟨fun _ => ⟨rfl, fun l => ?_⟩, ?_, ?_⟩
            · rw [hmem, List.mem_append, hls, List.mem_singleton]
              constructor
              · rintro (⟨h1, h2⟩ | rfl)
                · exact ⟨h1, Or.inl h2⟩
                · exact ⟨hbelow.1, Or.inr rfl⟩
              · rintro ⟨h1, h2 | h2⟩
                · exact Or.inl ⟨h1, h2⟩
                · exact Or.inr h2
            · rintro (h | h)
              · exact absurd h hfile
              · exact absurd hbelow.2 h
            · rintro (⟨k, hk, h1, h2⟩ | ⟨_, h⟩)
              · rcases hok k hk with h | h
                · rw [h] at h1
                  cases h1
                · rw [h] at h2
                  cases h2
              · rw [hal] at h
                cases h
          · rw [if_neg hal] at hmk2
            dsimp only
            rw [hmk2]
            have hdA := hdirAt _ hw' hd'
            rw [hdn'] at hdA
            rw [hdA]
            simp only [Bool.false_eq_true, if_false]
            refine ⟨fun h => ?_, ?_, fun _ => by simp⟩
            · rcases ((hsplitA h).2).2 with h' | h'
              · rw [hbelow.1] at h'
                cases h'
              · exact absurd h' hal
            · rintro (h | h)
              · exact absurd h hfile
              · exact absurd hbelow.2 h

end
end Sia
