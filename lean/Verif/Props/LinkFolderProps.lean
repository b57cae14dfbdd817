import Verif.Props.LinkExamples
import Verif.Model.LinkFolders

/-! C102: making the output folder on a tree with symbolic links. -/
namespace Sia

section
variable {T : LinkDisk}

theorem leads_append {k : Nat} {cur m : Place} {a : List (List Char)} (h : LeadsTo T k cur a m) (n : Nat) (hk : k ≤ n) (b : List (List Char)) :
    T.follow n cur (a ++ b) = T.follow (n - k) m b := by
  induction h generalizing n with
  | here l => rfl
  | @step k cur l c cs hd hl _ ih =>
    rw [List.cons_append, LinkDisk.follow, if_pos hd, hl]
    exact ih n hk
  | @jump k cur l c cs text hd hl _ ih =>
    rw [List.cons_append, LinkDisk.follow, if_pos hd, hl]
    cases n with
    | zero => omega
    | succ n =>
      have := ih n (by omega)
      rw [List.append_assoc] at this
      rw [Nat.succ_sub_succ]
      exact this

theorem leads_split {k : Nat} {cur l : Place} {a b : List (List Char)} (h : LeadsTo T k cur (a ++ b) l) :
    ∃ m k1 k2, k = k1 + k2 ∧ LeadsTo T k1 cur a m ∧ LeadsTo T k2 m b l := by
  generalize hc : a ++ b = cs at h
  induction h generalizing a with
  | here l =>
    obtain ⟨rfl, rfl⟩ := List.append_eq_nil_iff.mp hc
    exact ⟨l, 0, 0, rfl, .here l, .here l⟩
  | @step k cur l c cs hd hl hr ih =>
    cases a with
    | nil =>
      simp only [List.nil_append] at hc
      subst hc
      exact ⟨cur, 0, k, (Nat.zero_add k).symm, .here cur, .step hd hl hr⟩
    | cons x a =>
      simp only [List.cons_append, List.cons.injEq] at hc
      obtain ⟨rfl, hc⟩ := hc
      obtain ⟨m, k1, k2, e, h1, h2⟩ := ih hc
      exact ⟨m, k1, k2, e, .step hd hl h1, h2⟩
  | @jump k cur l c cs text hd hl hr ih =>
    cases a with
    | nil =>
      simp only [List.nil_append] at hc
      subst hc
      exact ⟨cur, 0, k + 1, (Nat.zero_add _).symm, .here cur, .jump hd hl hr⟩
    | cons x a =>
      simp only [List.cons_append, List.cons.injEq] at hc
      obtain ⟨rfl, hc⟩ := hc
      obtain ⟨m, k1, k2, e, h1, h2⟩ := ih (a := (parsePath text).parts ++ a) (by rw [List.append_assoc, hc])
      exact ⟨m, k1 + 1, k2, by omega, .jump hd hl h1, h2⟩

theorem leads_grows {T' : LinkDisk} (hg : ∀ m, T.isDir m = true → T'.isDir m = true) (hlink : T'.link = T.link) {k : Nat} {cur l : Place}
    {cs : List (List Char)} (h : LeadsTo T k cur cs l) : LeadsTo T' k cur cs l := by
  induction h with
  | here l => exact .here l
  | step hd hl _ ih => exact .step (hg _ hd) (by rw [hlink]; exact hl) ih
  | jump hd hl _ ih => exact .jump (hg _ hd) (by rw [hlink]; exact hl) ih

theorem follow_grows {T' : LinkDisk} (hg : ∀ m, T.isDir m = true → T'.isDir m = true) (hlink : T'.link = T.link) {n : Nat} {cur l : Place}
    {cs : List (List Char)} (h : T.follow n cur cs = .ok l) : T'.follow n cur cs = .ok l := by
  obtain ⟨k, hk, h⟩ := (follow_iff T n cur cs l).mp h
  exact (follow_iff T' n cur cs l).mpr ⟨k, hk, leads_grows hg hlink h⟩

theorem follow_then {n : Nat} {cur m l : Place} {a b : List (List Char)} (h : T.follow n cur a = .ok m) (h' : LeadsTo T 0 m b l) :
    T.follow n cur (a ++ b) = .ok l := by
  obtain ⟨k, hk, h⟩ := (follow_iff T n cur a m).mp h
  rw [leads_append h n hk b]
  exact (follow_iff T _ m b l).mpr ⟨0, Nat.zero_le _, h'⟩

variable {F : Type} (H : Host F)

/-- A folder made by one system call: it is new and no link, lies in a folder, and the path leads there. -/
theorem linkMkdir_ok (T : LinkDisk) (p : RawPath) (hp : ∀ m ∈ p.parts, '/' ∉ m) (l : Place) (h : H.linkMkdir T p = .ok l) :
    ∃ dir last init rest, l = dir ++ [last] ∧ T.isDir dir = true ∧ T.occupied l = false ∧ H.allowed l = true ∧ ProperName last ∧
      p.parts = init ++ [last] ++ rest ∧ (∀ x ∈ rest, x = []) ∧ T.follow 40 (if p.abs then [] else H.cwd) init = .ok dir ∧
      T.link l = none := by
  unfold Host.linkMkdir at h
  split at h
  · cases h
  · dsimp only at h
    obtain ⟨t, ht, htn⟩ := rdropWhile_split (fun x : List Char => decide (x = [])) p.parts
    set parts := p.parts.rdropWhile fun x => decide (x = []) with hparts
    split at h
    · cases h
    · rename_i last hlast
      have hne : parts ≠ [] := by rintro e; rw [e] at hlast; simp at hlast
      have hl : parts = parts.dropLast ++ [last] := by
        have := List.dropLast_append_getLast hne
        rw [List.getLast?_eq_some_getLast hne] at hlast
        cases hlast
        exact this.symm
      have hlne : last ≠ [] := by
        have h1 := List.rdropWhile_last_not (fun x : List Char => decide (x = [])) p.parts (hparts ▸ hne)
        rw [List.getLast?_eq_some_getLast hne] at hlast
        cases hlast
        simpa using h1
      have hlm : last ∈ p.parts := by
        rw [ht, hl]
        simp
      split at h
      · cases h
      · rename_i dir hdir
        split at h
        · rename_i hd
          split at h
          · cases h
          · rename_i hdots
            split at h
            · cases h
            · rename_i hocc
              split at h
              · rename_i hall
                cases h
                rw [Bool.not_eq_true, Bool.or_eq_false_iff] at hocc
                refine ⟨dir, last, parts.dropLast, t, rfl, hd, hocc.1, hall, ⟨hlne, hp last hlm, ?_, ?_⟩, ?_, ?_, hdir, ?_⟩
                · exact fun e => hdots (Or.inl e)
                · exact fun e => hdots (Or.inr e)
                · rw [← hl]
                  exact ht
                · intro x hx
                  simpa using htn x hx
                · simpa using hocc.2
              · cases h
        · cases h

theorem linkAddDir_sound {T : LinkDisk} (hT : T.Sound) (dir : Place) (last : List Char) (hd : T.isDir dir = true) (hl : ProperName last)
    (ho : T.occupied (dir ++ [last]) = false) (hlink : T.link (dir ++ [last]) = none) : (T.addDirs [dir ++ [last]]).Sound where
  tree := addDir_sound hT.tree dir last hd hl ho
  root := hT.root
  inside l n h := by
    obtain ⟨h1, h2⟩ := hT.inside l n h
    exact ⟨(addDirs_isDir T.toDisk _ l).mpr (Or.inl h1), h2⟩
  apart l h := by
    obtain ⟨h1, h2⟩ := hT.apart l h
    refine ⟨?_, by rw [← h2]; exact congrFun (addDirs_content T.toDisk _) l⟩
    rw [Bool.eq_false_iff]
    intro hd'
    rcases (addDirs_isDir T.toDisk _ l).mp hd' with hd' | hd'
    · rw [h1] at hd'
      cases hd'
    · rw [List.mem_singleton.mp hd'] at h
      exact h hlink

theorem linkAddDirs_append (T : LinkDisk) (a b : List Place) : T.addDirs (a ++ b) = (T.addDirs a).addDirs b := by
  unfold LinkDisk.addDirs
  rw [addDirs_append]

theorem linkAddDirs_isDir (T : LinkDisk) (ls : List Place) (l : Place) : (T.addDirs ls).isDir l = true ↔ T.isDir l = true ∨ l ∈ ls :=
  addDirs_isDir T.toDisk ls l

theorem leads_empties (T : LinkDisk) (hT : T.Sound) (cur : Place) (h : T.isDir cur = true) (rest : List (List Char)) (hr : ∀ x ∈ rest, x = []) :
    LeadsTo T 0 cur rest cur := by
  induction rest with
  | nil => exact .here _
  | cons c rest ih =>
    have hc := hr c List.mem_cons_self
    subst hc
    have ho : onward cur [] = cur := by simp [onward]
    refine .step h ?_ ?_
    · rw [ho]
      exact hT.dir_no_link _ h
    · rw [ho]
      exact ih fun x hx => hr x (List.mem_cons_of_mem _ hx)

/-- After the call the path leads to the new folder. -/
theorem linkMkdir_leads (T T' : LinkDisk) (hT' : T'.Sound) (p : RawPath) (hp : ∀ m ∈ p.parts, '/' ∉ m) (l : Place) (h : H.linkMkdir T p = .ok l)
    (hg : ∀ m, T.isDir m = true → T'.isDir m = true) (hlink : T'.link = T.link) (hl : T'.isDir l = true) :
    T'.find H.cwd p = .ok l ∧ ∃ parts, parts <+: p.parts ∧ T'.follow 40 (if p.abs then [] else H.cwd) parts = .ok l := by
  obtain ⟨dir, last, init, rest, rfl, h2, h3, h4, h5, h6, h7, h8, h9⟩ := linkMkdir_ok H T p hp l h
  have hon : onward dir last = dir ++ [last] := onward_proper _ _ h5
  have hw : T'.follow 40 (if p.abs then [] else H.cwd) (init ++ [last]) = .ok (dir ++ [last]) := by
    refine follow_then (follow_grows hg hlink h8) (.step (hg _ h2) ?_ ?_)
    · rw [hon, hlink]
      exact h9
    · rw [hon]
      exact .here _
  refine ⟨?_, init ++ [last], ⟨rest, h6.symm⟩, hw⟩
  unfold LinkDisk.find
  have he : p.isEmpty = false := by
    unfold RawPath.isEmpty
    rw [h6]
    simp
  rw [he]
  simp only [Bool.false_eq_true, if_false]
  rw [h6]
  exact follow_then hw (leads_empties T' hT' _ hl rest h7)

/-- C102: making the output folder only adds folders, each in a folder that is there already and where nothing was, no link either, so
that the tree is a sound tree after any number of them; each new folder is where a first part of the path leads, links followed; and if
there is no error the path then leads to a folder. -/
theorem link_folders_made (T : LinkDisk) (hT : T.Sound) (p : RawPath) (hp : ∀ m ∈ p.parts, '/' ∉ m) :
    (∀ n, (T.addDirs ((H.linkCreateDirAll T p).1.take n)).Sound) ∧
    (∀ l ∈ (H.linkCreateDirAll T p).1, T.occupied l = false ∧ T.link l = none ∧ H.allowed l = true ∧
      ∃ parts, parts <+: p.parts ∧ (T.addDirs (H.linkCreateDirAll T p).1).follow 40 (if p.abs then [] else H.cwd) parts = .ok l) ∧
    ((H.linkCreateDirAll T p).2 = none → p.isEmpty = false → (T.addDirs (H.linkCreateDirAll T p).1).dirAt H.cwd p = true) := by
  have none_made : (∀ n, (T.addDirs (([] : List Place).take n)).Sound) := by
    intro n
    rw [List.take_nil]
    exact hT
  induction hn : p.parts.length using Nat.strong_induction_on generalizing p with
  | _ n ih =>
  unfold Host.linkCreateDirAll
  split
  · rename_i he
    refine ⟨none_made, by simp, fun _ h => ?_⟩
    rw [he] at h
    cases h
  · rename_i he
    split
    · rename_i l hl
      obtain ⟨dir, last, init, rest, e1, h2, h3, h4, h5, h6, h7, h8, h9⟩ := linkMkdir_ok H T p hp l hl
      have hS1 : (T.addDirs [l]).Sound := by
        subst e1
        exact linkAddDir_sound hT dir last h2 h5 h3 h9
      have hlead := linkMkdir_leads H T (T.addDirs [l]) hS1 p hp l hl (addDirs_grows T.toDisk [l]).1 rfl ((linkAddDirs_isDir T [l] l).mpr (by simp))
      refine ⟨fun n => ?_, ?_, fun _ _ => ?_⟩
      · rcases n with _ | n
        · exact hT
        · rw [List.take_of_length_le (by simp)]
          exact hS1
      · intro m hm
        cases List.mem_singleton.mp hm
        exact ⟨h3, h9, h4, hlead.2⟩
      · unfold LinkDisk.dirAt
        rw [hlead.1]
        exact (linkAddDirs_isDir T [l] l).mpr (by simp)
    · rename_i hnf
      split
      · exact ⟨none_made, by simp, fun h => by cases h⟩
      · rename_i q hq
        obtain ⟨qa, qp⟩ := parent_prefix p q hq
        obtain ⟨i1, i2, i3⟩ := ih q.parts.length (hn ▸ RawPath.parent_length p q hq) q (fun m hm => hp m (qp.subset hm)) rfl
        split
        · rename_i ls e hr
          rw [hr] at i1 i2 i3
          refine ⟨i1, fun l hl => ?_, fun h => by cases h⟩
          obtain ⟨j1, j2, j2', parts, j3, j4⟩ := i2 l hl
          exact ⟨j1, j2, j2', parts, j3.trans qp, qa ▸ j4⟩
        · rename_i ls hr
          rw [hr] at i1 i2 i3
          have hS : (T.addDirs ls).Sound := by
            have := i1 ls.length
            rwa [List.take_length] at this
          split
          · rename_i l hl
            obtain ⟨dir, last, init, rest, e1, h2, h3, h4, h5, h6, h7, h8, h9⟩ := linkMkdir_ok H (T.addDirs ls) p hp l hl
            have hg : ∀ m, (T.addDirs ls).isDir m = true → (T.addDirs (ls ++ [l])).isDir m = true := by
              intro m hm
              rw [linkAddDirs_append]
              exact (linkAddDirs_isDir _ _ _).mpr (Or.inl hm)
            have hS2 : (T.addDirs (ls ++ [l])).Sound := by
              rw [linkAddDirs_append]
              subst e1
              exact linkAddDir_sound hS dir last h2 h5 h3 h9
            have hlead := linkMkdir_leads H (T.addDirs ls) (T.addDirs (ls ++ [l])) hS2 p hp l hl hg rfl
              ((linkAddDirs_isDir T _ l).mpr (by simp))
            refine ⟨fun n => ?_, ?_, fun _ _ => ?_⟩
            · rcases Nat.lt_or_ge ls.length n with hlt | hge
              · rw [List.take_of_length_le (by simp; omega)]
                exact hS2
              · rw [List.take_append_of_le_length hge]
                exact i1 n
            · intro m hm
              rcases List.mem_append.mp hm with hm | hm
              · obtain ⟨j1, j2, j2', parts, j3, j4⟩ := i2 m hm
                exact ⟨j1, j2, j2', parts, j3.trans qp, follow_grows hg rfl (qa ▸ j4)⟩
              · cases List.mem_singleton.mp hm
                refine ⟨?_, h9, h4, hlead.2⟩
                simp only [Disk.occupied, Bool.or_eq_false_iff] at h3 ⊢
                refine ⟨?_, ?_⟩
                · have := h3.1
                  rw [Bool.eq_false_iff] at this ⊢
                  exact fun hd => this ((linkAddDirs_isDir T ls _).mpr (Or.inl hd))
                · rw [← addDirs_content T.toDisk ls]
                  exact h3.2
            · unfold LinkDisk.dirAt
              rw [hlead.1]
              exact (linkAddDirs_isDir T _ l).mpr (by simp)
          · rename_i e he'
            have hls : ∀ l ∈ ls, T.occupied l = false ∧ T.link l = none ∧ H.allowed l = true ∧
                ∃ parts, parts <+: p.parts ∧ (T.addDirs ls).follow 40 (if p.abs then [] else H.cwd) parts = .ok l := by
              intro l hl
              obtain ⟨j1, j2, j2', parts, j3, j4⟩ := i2 l hl
              exact ⟨j1, j2, j2', parts, j3.trans qp, qa ▸ j4⟩
            split
            · rename_i hd
              exact ⟨i1, hls, fun _ _ => hd⟩
            · exact ⟨i1, hls, fun h => by cases h⟩
    · split
      · rename_i hd
        exact ⟨none_made, by simp, fun _ _ => hd⟩
      · exact ⟨none_made, by simp, fun h => by cases h⟩

theorem link_made_ok (T : LinkDisk) (p : RawPath) (he : p.isEmpty = false) (l : Place) (h : H.linkMkdir T p = .ok l) :
    H.linkCreateDirAll T p = ([l], none) := by
  rw [Host.linkCreateDirAll, he, h]
  rfl

theorem link_made_error (T : LinkDisk) (p : RawPath) (he : p.isEmpty = false) (e : Trouble) (hne : e ≠ .notFound)
    (h : H.linkMkdir T p = .error e) : H.linkCreateDirAll T p = if T.dirAt H.cwd p then ([], none) else ([], some e) := by
  rw [Host.linkCreateDirAll, he, h]
  cases e
  · exact absurd rfl hne
  · rfl
  · rfl
  · rfl

theorem link_made_top (T : LinkDisk) (p : RawPath) (he : p.isEmpty = false) (h : H.linkMkdir T p = .error .notFound) (hq : p.parent = none) :
    H.linkCreateDirAll T p = ([], some .refused) := by
  rw [Host.linkCreateDirAll, he, h]
  simp only [Bool.false_eq_true, if_false]
  split
  · rfl
  · rename_i q' hq'
    rw [hq] at hq'
    cases hq'

theorem link_made_deeper (T : LinkDisk) (p q : RawPath) (he : p.isEmpty = false) (h : H.linkMkdir T p = .error .notFound)
    (hq : p.parent = some q) :
    H.linkCreateDirAll T p = match H.linkCreateDirAll T q with
      | (ls, some e) => (ls, some e)
      | (ls, none) => match H.linkMkdir (T.addDirs ls) p with
        | .ok l => (ls ++ [l], none)
        | .error e => if (T.addDirs ls).dirAt H.cwd p then (ls, none) else (ls, some e) := by
  rw [Host.linkCreateDirAll, he, h]
  simp only [Bool.false_eq_true, if_false]
  split
  · rename_i hn
    rw [hq] at hn
    cases hn
  · rename_i q' hq'
    rw [hq] at hq'
    cases hq'
    rfl

theorem made_top (D : Disk) (p : RawPath) (he : p.isEmpty = false) (h : H.mkdir D p = .error .notFound) (hq : p.parent = none) :
    H.createDirAll D p = ([], some .refused) := by
  rw [Host.createDirAll, he, h]
  simp only [Bool.false_eq_true, if_false]
  split
  · rfl
  · rename_i q' hq'
    rw [hq] at hq'
    cases hq'

/-- C102: on a tree without links folders are made as in C95. -/
theorem link_folders_none (T : LinkDisk) (h : ∀ l, T.link l = none) (p : RawPath) : H.linkCreateDirAll T p = H.createDirAll T.toDisk p := by
  have hm : ∀ (T : LinkDisk) (_ : ∀ l, T.link l = none) (p : RawPath), H.linkMkdir T p = H.mkdir T.toDisk p := by
    intro T h p
    unfold Host.linkMkdir Host.mkdir
    simp only [follow_no_links T h, h, Option.isSome_none, Bool.or_false]
    rfl
  have hd : ∀ (T : LinkDisk) (_ : ∀ l, T.link l = none) (p : RawPath), T.dirAt H.cwd p = T.toDisk.dirAt H.cwd p := by
    intro T h p
    unfold LinkDisk.dirAt Disk.dirAt LinkDisk.find Disk.find
    rw [follow_no_links T h]
    rfl
  induction hn : p.parts.length using Nat.strong_induction_on generalizing p with
  | _ n ih =>
  cases he : p.isEmpty with
  | true =>
    rw [Host.linkCreateDirAll, Host.createDirAll, he]
    rfl
  | false =>
    cases hk : H.mkdir T.toDisk p with
    | ok l => rw [link_made_ok H T p he l ((hm T h p).trans hk), made_ok H T.toDisk p he l hk]
    | error e =>
      by_cases hnf : e = .notFound
      · subst hnf
        cases hq : p.parent with
        | none => rw [link_made_top H T p he ((hm T h p).trans hk) hq, made_top H T.toDisk p he hk hq]
        | some q =>
          rw [link_made_deeper H T p q he ((hm T h p).trans hk) hq, made_deeper H T.toDisk p q he hk hq,
            ih q.parts.length (hn ▸ RawPath.parent_length p q hq) q rfl]
          rcases H.createDirAll T.toDisk q with ⟨ls, e | e⟩
          · dsimp only
            rw [hm (T.addDirs ls) h p, hd (T.addDirs ls) h p]
            rfl
          · rfl
      · rw [link_made_error H T p he e hnf ((hm T h p).trans hk), made_error H T.toDisk p he e hnf hk, hd T h p]

theorem linkMkdir_plain (T : LinkDisk) (abs : Bool) (names : List (List Char)) (n : List Char) (hn : ProperName n) :
    H.linkMkdir T ⟨abs, names ++ [n]⟩ = match T.follow 40 (if abs then [] else H.cwd) names with
      | .error e => .error e
      | .ok dir => if T.isDir dir then
          if T.occupied (dir ++ [n]) || (T.link (dir ++ [n])).isSome then .error .alreadyExists
          else if H.allowed (dir ++ [n]) then .ok (dir ++ [n]) else .error .refused
        else .error (T.noFolder dir) := by
  unfold Host.linkMkdir
  have he : RawPath.isEmpty ⟨abs, names ++ [n]⟩ = false := by
    unfold RawPath.isEmpty
    simp
  have hr : (names ++ [n]).rdropWhile (fun x : List Char => decide (x = [])) = names ++ [n] := by
    rw [List.rdropWhile_concat_neg _ _ _ (by simpa using hn.1)]
  rw [he]
  dsimp only
  rw [hr, List.getLast?_concat, List.dropLast_concat]
  simp only [Bool.false_eq_true, if_false]
  have hdots : ¬ (n = ['.'] ∨ n = ['.', '.']) := by
    rintro (h | h)
    · exact hn.2.2.1 h
    · exact hn.2.2.2 h
  simp only [if_neg hdots]
  cases T.follow 40 (if abs then [] else H.cwd) names <;> rfl

theorem dirAt_iff (T : LinkDisk) (cwd : Place) (abs : Bool) (names : List (List Char)) (hne : names ≠ []) :
    T.dirAt cwd ⟨abs, names⟩ = true ↔ ∃ k ≤ 40, ∃ l, LeadsTo T k (if abs then [] else cwd) names l ∧ T.isDir l = true := by
  have he : RawPath.isEmpty ⟨abs, names⟩ = false := by
    unfold RawPath.isEmpty
    simp [hne]
  unfold LinkDisk.dirAt LinkDisk.find
  rw [he]
  simp only [Bool.false_eq_true, if_false]
  constructor
  · intro h
    cases hf : T.follow 40 (if abs then [] else cwd) names with
    | error e =>
      rw [hf] at h
      cases h
    | ok l =>
      rw [hf] at h
      obtain ⟨k, hk, hl⟩ := (follow_iff T 40 _ _ l).mp hf
      exact ⟨k, hk, l, hl, h⟩
  · rintro ⟨k, hk, l, hl, hd⟩
    rw [(follow_iff T 40 _ _ l).mpr ⟨k, hk, hl⟩]
    exact hd

/-- Further parts of a path that leads to no folder lead to no folder. -/
theorem dirAt_further (T : LinkDisk) (cwd : Place) (abs : Bool) (names more : List (List Char)) (hne : names ≠ [])
    (h : T.dirAt cwd ⟨abs, names⟩ = false) : T.dirAt cwd ⟨abs, names ++ more⟩ = false := by
  rw [Bool.eq_false_iff] at h ⊢
  intro h'
  apply h
  obtain ⟨k, hk, l, hl, hd⟩ := (dirAt_iff T cwd abs (names ++ more) (by simp [hne])).mp h'
  obtain ⟨m, k1, k2, rfl, h1, h2⟩ := leads_split hl
  refine (dirAt_iff T cwd abs names hne).mpr ⟨k1, by omega, m, h1, ?_⟩
  cases h2 with
  | here => exact hd
  | step h _ _ => exact h
  | jump h _ _ => exact h

/-- C102: if a link on the way of the `-o` path, or at its end, leads to no folder, making the output folder is an error and nothing is made. -/
theorem link_in_the_way (T : LinkDisk) (hT : T.Sound) (abs : Bool) (init : List (List Char)) (name : List Char) (more : List (List Char))
    (hn : ∀ n ∈ init ++ [name] ++ more, ProperName n) (up : Place) (hup : T.follow 40 (if abs then [] else H.cwd) init = .ok up)
    (hl : T.link (up ++ [name]) ≠ none) (hno : T.dirAt H.cwd ⟨abs, init ++ [name]⟩ = false) :
    ∃ e, H.linkCreateDirAll T ⟨abs, init ++ [name] ++ more⟩ = ([], some e) := by
  induction more using List.reverseRecOn with
  | nil =>
    rw [List.append_nil]
    have hm : H.linkMkdir T ⟨abs, init ++ [name]⟩ = .error .alreadyExists := by
      rw [linkMkdir_plain H T abs init name (hn name (by simp)), hup]
      dsimp only
      rw [if_pos (hT.inside up name hl).1, if_pos]
      rw [Bool.or_eq_true]
      exact Or.inr (Option.isSome_iff_ne_none.mpr hl)
    rw [link_made_error H T _ (by unfold RawPath.isEmpty; simp) _ (by decide) hm, hno]
    exact ⟨_, rfl⟩
  | append_singleton more n ih =>
    rw [← List.append_assoc] at hn ⊢
    obtain ⟨e', ih⟩ := ih fun m hm => hn m (List.mem_append_left _ hm)
    have hpar := dirAt_further T H.cwd abs (init ++ [name]) more (by simp) hno
    have hme : ∃ e, H.linkMkdir T ⟨abs, (init ++ [name] ++ more) ++ [n]⟩ = .error e := by
      rw [linkMkdir_plain H T abs _ n (hn n (by simp))]
      cases hf : T.follow 40 (if abs then [] else H.cwd) (init ++ [name] ++ more) with
      | error e => exact ⟨e, rfl⟩
      | ok dir =>
        dsimp only
        have : ¬ T.isDir dir = true := by
          intro hd
          obtain ⟨k, hk, hk'⟩ := (follow_iff T 40 _ _ dir).mp hf
          rw [(dirAt_iff T H.cwd abs _ (by simp)).mpr ⟨k, hk, dir, hk', hd⟩] at hpar
          cases hpar
        rw [if_neg this]
        exact ⟨_, rfl⟩
    obtain ⟨e, he⟩ := hme
    have hemp : RawPath.isEmpty ⟨abs, (init ++ [name] ++ more) ++ [n]⟩ = false := by unfold RawPath.isEmpty; simp
    by_cases hnf : e = .notFound
    · subst hnf
      rw [link_made_deeper H T _ _ hemp he (parent_plain abs _ n hn), ih]
      exact ⟨e', rfl⟩
    · rw [link_made_error H T _ hemp e hnf he, dirAt_further T H.cwd abs (init ++ [name] ++ more) [n] (by simp) hpar]
      exact ⟨e, rfl⟩

theorem leads_dirs (T : LinkDisk) (hT : T.Sound) (cur : Place) (names : List (List Char)) (hn : ∀ n ∈ names, ProperName n)
    (hd : ∀ k ≤ names.length, T.isDir (cur ++ names.take k) = true) : LeadsTo T 0 cur names (cur ++ names) := by
  induction names generalizing cur with
  | nil => simpa using LeadsTo.here (T := T) cur
  | cons n names ih =>
    have hon : onward cur n = cur ++ [n] := onward_proper _ _ (hn n List.mem_cons_self)
    have h1 : T.isDir (cur ++ [n]) = true := by
      have := hd 1 (by simp)
      simpa using this
    refine .step (by simpa using hd 0 (Nat.zero_le _)) ?_ ?_
    · rw [hon]
      exact hT.dir_no_link _ h1
    · rw [hon]
      have := ih (cur ++ [n]) (fun m hm => hn m (List.mem_cons_of_mem _ hm)) (fun k hk => by
        have := hd (k + 1) (by simpa using hk)
        simpa using this)
      simpa using this

/-- C102: if a first part of the `-o` path leads to a folder, links followed, and the next name is not there, exactly the folders of the
remaining names are made inside it, one in the other. -/
theorem link_folders_exactly (T : LinkDisk) (hT : T.Sound) (abs : Bool) (init new : List (List Char)) (hne : new ≠ [])
    (hn : ∀ n ∈ init ++ new, ProperName n) (dir : Place) (hdir : T.follow 40 (if abs then [] else H.cwd) init = .ok dir)
    (hd : T.isDir dir = true) (hfree : T.occupied (dir ++ new.take 1) = false) (hlink : T.link (dir ++ new.take 1) = none)
    (hall : ∀ k, 1 ≤ k → k ≤ new.length → H.allowed (dir ++ new.take k) = true) :
    H.linkCreateDirAll T ⟨abs, init ++ new⟩ = ((List.range new.length).map fun k => dir ++ new.take (k + 1), none) := by
  induction new using List.reverseRecOn with
  | nil => exact absurd rfl hne
  | append_singleton new n ih =>
    have hemp : RawPath.isEmpty ⟨abs, (init ++ new) ++ [n]⟩ = false := by unfold RawPath.isEmpty; simp
    rw [← List.append_assoc] at hn ⊢
    have hpn : ProperName n := hn n (by simp)
    rcases new with _ | ⟨n1, rest⟩
    · have hm : H.linkMkdir T ⟨abs, (init ++ []) ++ [n]⟩ = .ok (dir ++ [n]) := by
        rw [linkMkdir_plain H T abs _ n hpn, List.append_nil, hdir]
        dsimp only
        have h1 : T.occupied (dir ++ [n]) = false := hfree
        have h2 : T.link (dir ++ [n]) = none := hlink
        have h3 : H.allowed (dir ++ [n]) = true := hall 1 (Nat.le_refl _) (by simp)
        rw [if_pos hd, h1, h2, h3]
        rfl
      rw [link_made_ok H T _ hemp _ hm]
      rfl
    · -- the first new folder is not there
      have hfree' : T.occupied (dir ++ [n1]) = false := hfree
      have hlink' : T.link (dir ++ [n1]) = none := hlink
      have hnd : T.isDir (dir ++ [n1]) = false := by
        simp only [Disk.occupied, Bool.or_eq_false_iff] at hfree'
        exact hfree'.1
      have hnc : T.content (dir ++ [n1]) = none := by
        simp only [Disk.occupied, Bool.or_eq_false_iff] at hfree'
        simpa using hfree'.2
      have habove : ∀ b : List (List Char), T.isDir (dir ++ n1 :: b) = false := by
        intro b
        rw [Bool.eq_false_iff]
        intro h
        have := hT.above (dir ++ [n1]) b (by simpa using h)
        rw [hnd] at this
        cases this
      have hpn1 : ProperName n1 := hn n1 (by simp)
      have hon : onward dir n1 = dir ++ [n1] := onward_proper _ _ hpn1
      obtain ⟨k, hk, hkl⟩ := (follow_iff T 40 _ _ dir).mp hdir
      have hmk : H.linkMkdir T ⟨abs, (init ++ n1 :: rest) ++ [n]⟩ = .error .notFound := by
        rw [linkMkdir_plain H T abs _ n hpn, leads_append hkl 40 hk, LinkDisk.follow, if_pos hd, hon, hlink']
        have hno : T.noFolder (dir ++ [n1]) = .notFound := by
          unfold Disk.noFolder
          rw [hnc]
          rfl
        cases rest with
        | nil =>
          simp only [LinkDisk.follow, hnd, Bool.false_eq_true, if_false, hno]
        | cons c cs =>
          simp only [LinkDisk.follow, hnd, Bool.false_eq_true, if_false, hno]
      have ih' := ih (List.cons_ne_nil _ _) (fun m hm => hn m (List.mem_append_left _ hm)) hfree' hlink' (fun k h1 h2 => by
        have := hall k h1 (by simp only [List.length_append]; omega)
        rw [List.take_append_of_le_length h2] at this
        exact this)
      obtain ⟨f1, -, -⟩ := link_folders_made H T hT ⟨abs, init ++ n1 :: rest⟩ fun m hm => (hn m (List.mem_append_left _ hm)).2.1
      have hS := f1 (H.linkCreateDirAll T ⟨abs, init ++ n1 :: rest⟩).1.length
      rw [List.take_length, ih'] at hS
      rw [link_made_deeper H T _ _ hemp hmk (parent_plain abs _ n hn), ih']
      dsimp only at hS ⊢
      set ls := (List.range (n1 :: rest).length).map fun k => dir ++ (n1 :: rest).take (k + 1) with hls
      have hmem : ∀ k, 1 ≤ k → k ≤ (n1 :: rest).length → dir ++ (n1 :: rest).take k ∈ ls := by
        intro k h1 h2
        rw [hls, List.mem_map]
        exact ⟨k - 1, List.mem_range.mpr (by omega), by rw [Nat.sub_add_cancel h1]⟩
      have hdirs : ∀ k ≤ (n1 :: rest).length, (T.addDirs ls).isDir (dir ++ (n1 :: rest).take k) = true := by
        intro k hk
        rw [linkAddDirs_isDir]
        rcases Nat.eq_zero_or_pos k with rfl | hk'
        · exact Or.inl (by simpa using hd)
        · exact Or.inr (hmem k hk' hk)
      have hto := leads_dirs (T.addDirs ls) hS dir (n1 :: rest) (fun m hm => hn m (by
        rw [List.mem_append, List.mem_append]
        exact Or.inl (Or.inr hm))) hdirs
      have hdir' : (T.addDirs ls).follow 40 (if abs then [] else H.cwd) (init ++ n1 :: rest) = .ok (dir ++ n1 :: rest) :=
        follow_then (follow_grows (fun m hm => (linkAddDirs_isDir T ls m).mpr (Or.inl hm)) rfl hdir) hto
      have hmk' : H.linkMkdir (T.addDirs ls) ⟨abs, (init ++ n1 :: rest) ++ [n]⟩ = .ok (dir ++ n1 :: rest ++ [n]) := by
        rw [linkMkdir_plain H (T.addDirs ls) abs _ n hpn, hdir']
        dsimp only
        have hlast : (T.addDirs ls).isDir (dir ++ n1 :: rest) = true := by simpa using hdirs (n1 :: rest).length (Nat.le_refl _)
        have h1 : (T.addDirs ls).occupied (dir ++ n1 :: rest ++ [n]) = false := by
          simp only [Disk.occupied, Bool.or_eq_false_iff]
          constructor
          · rw [Bool.eq_false_iff]
            intro h
            rcases (linkAddDirs_isDir T ls _).mp h with h | h
            · have := habove (rest ++ [n])
              rw [List.append_assoc] at h
              rw [List.cons_append] at h
              rw [this] at h
              cases h
            · rw [hls, List.mem_map] at h
              obtain ⟨j, hj, he⟩ := h
              have := congrArg List.length he
              rw [List.mem_range] at hj
              simp only [List.length_append, List.length_take, List.length_cons, List.length_nil] at this hj
              omega
          · show ((T.toDisk.addDirs ls).content _).isSome = false
            rw [addDirs_content]
            have : T.content (dir ++ n1 :: rest ++ [n]) = none := by
              by_contra h
              have := (hT.tree.inside _ _ (Or.inr h)).1
              rw [habove rest] at this
              cases this
            rw [this]
            rfl
        have h2 : (T.addDirs ls).link (dir ++ n1 :: rest ++ [n]) = none := by
          show T.link _ = none
          by_contra h
          have := (hT.inside _ _ h).1
          rw [habove rest] at this
          cases this
        have h3 : H.allowed (dir ++ n1 :: rest ++ [n]) = true := by
          have := hall (n1 :: rest ++ [n]).length (by simp) (Nat.le_refl _)
          rw [List.take_length] at this
          rw [List.append_assoc]
          exact this
        rw [if_pos hlast, h1, h2, h3]
        rfl
      rw [hmk']
      have hend : ls ++ [dir ++ n1 :: rest ++ [n]] =
          (List.range (n1 :: rest ++ [n]).length).map fun k => dir ++ (n1 :: rest ++ [n]).take (k + 1) := by
        have hlen : (n1 :: rest ++ [n]).length = (n1 :: rest).length + 1 := List.length_append
        rw [hlen, List.range_succ, List.map_append, List.map_cons, List.map_nil, ← hlen, List.take_length, ← List.append_assoc]
        refine congrArg (fun a => a ++ [dir ++ n1 :: rest ++ [n]]) ?_
        rw [hls]
        refine List.map_congr_left fun k hk => ?_
        rw [List.mem_range] at hk
        rw [List.take_append_of_le_length (by omega)]
      exact Prod.ext hend rfl

end
end Sia
