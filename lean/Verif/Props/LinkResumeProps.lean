import Verif.Props.LinkRunProps

/-! C102: making the output folder after an interrupted attempt, on a tree with symbolic links. -/
namespace Sia

theorem rdrop_last_ne {l a : List (List Char)} {x : List Char} (f : List Char → Bool) (hf : f [] = true) (h : l.rdropWhile f = a ++ [x]) : x ≠ [] := by
  rintro rfl
  have hne : l.rdropWhile f ≠ [] := by rw [h]; simp
  have := List.rdropWhile_last_not f l hne
  have e : (l.rdropWhile f).getLast hne = [] := by simp [h]
  rw [e] at this
  exact this hf

theorem trim_last (p : RawPath) (a : List (List Char)) (x : List Char) (h : p.trim = a ++ [x]) : x ≠ [] := by
  obtain ⟨abs, parts⟩ := p
  unfold RawPath.trim at h
  split at h
  · rename_i rest _ _
    rcases List.eq_nil_or_concat (rest.rdropWhile idlePart) with hr | ⟨b, y, hr⟩
    · rw [hr] at h
      cases a with
      | nil =>
        cases h
        decide
      | cons c a =>
        have := congrArg List.length h
        simp at this
    · rw [List.concat_eq_append] at hr
      have hy := rdrop_last_ne idlePart (by decide) hr
      rw [hr] at h
      have h' : (['.'] :: b) ++ [y] = a ++ [x] := h
      have := List.append_inj_right' h' rfl
      cases this
      exact hy
  · exact rdrop_last_ne idlePart (by decide) h

theorem parent_before (p q : RawPath) (h : p.parent = some q) : q.parts <+: (p.parts.rdropWhile fun x => decide (x = [])).dropLast := by
  unfold RawPath.parent at h
  split at h
  · cases h
  · rename_i hne
    cases h
    refine (trim_prefix _).trans ?_
    obtain ⟨a, x, hx⟩ : ∃ a x, p.trim = a ++ [x] := by
      rcases List.eq_nil_or_concat p.trim with h | ⟨a, x, h⟩
      · exact absurd h hne
      · exact ⟨a, x, by rw [h, List.concat_eq_append]⟩
    have hxne := trim_last p a x hx
    obtain ⟨t, ht, htn⟩ := rdropWhile_split (fun x : List Char => decide (x = [])) p.parts
    obtain ⟨r, hr⟩ := trim_prefix p
    rw [hx] at hr
    show p.trim.dropLast <+: _
    rw [hx, List.dropLast_concat]
    set parts := p.parts.rdropWhile fun x => decide (x = []) with hparts
    have hlt : a.length < parts.length := by
      by_contra hge
      rw [not_lt] at hge
      refine hxne ?_
      have hmem : x ∈ t := by
        have e : a ++ ([x] ++ r) = parts ++ t := by rw [← List.append_assoc, hr, ← ht]
        rcases List.append_eq_append_iff.mp e with ⟨b, h1, h2⟩ | ⟨b, h1, h2⟩
        · have hb : b = [] := by
            have := congrArg List.length h1
            rw [List.length_append] at this
            exact List.length_eq_zero_iff.mp (by omega)
          rw [hb] at h2
          rw [List.nil_append] at h2
          rw [← h2]
          simp
        · rw [h2]
          simp
      exact of_decide_eq_true (htn x hmem)
    have h1 : a <+: p.parts := ⟨[x] ++ r, by rw [← List.append_assoc, hr]⟩
    have h2 : parts.dropLast <+: p.parts := (List.dropLast_prefix _).trans (List.rdropWhile_prefix _ _)
    refine List.prefix_of_prefix_length_le h1 h2 ?_
    rw [List.length_dropLast]
    omega

section
variable {F : Type} (H : Host F)

/-- A path that goes wrong where something is in the way still does so with more folders. -/
theorem follow_error_grows {T T' : LinkDisk} (hg : ∀ m, T.isDir m = true → T'.isDir m = true) (hlink : T'.link = T.link)
    (hcontent : T'.content = T.content) (hT' : T'.Sound) (n : Nat) (cur : Place) (parts : List (List Char)) (e : Trouble)
    (h : T.follow n cur parts = .error e) (he : e ≠ .notFound) : T'.follow n cur parts = .error e := by
  induction n, cur, parts using LinkDisk.follow.induct T with
  | case1 n cur =>
    rw [LinkDisk.follow] at h
    cases h
  | case2 n cur c cs hd hl ih =>
    rw [LinkDisk.follow, if_pos hd, hl] at h
    rw [LinkDisk.follow, if_pos (hg _ hd), hlink, hl]
    exact ih h
  | case3 cur c cs hd text hl =>
    rw [LinkDisk.follow, if_pos hd, hl] at h
    rw [LinkDisk.follow, if_pos (hg _ hd), hlink, hl]
    exact h
  | case4 cur c cs hd text hl n ih =>
    rw [LinkDisk.follow, if_pos hd, hl] at h
    rw [LinkDisk.follow, if_pos (hg _ hd), hlink, hl]
    exact ih h
  | case5 n cur c cs hd =>
    rw [LinkDisk.follow, if_neg hd] at h
    have he' : T.noFolder cur = e := by cases h; rfl
    have hc : T.content cur ≠ none := by
      intro hc
      unfold Disk.noFolder at he'
      rw [hc] at he'
      exact he he'.symm
    have hd' : ¬ T'.isDir cur = true := by
      intro h'
      have := hT'.tree.apart _ h'
      rw [hcontent] at this
      exact hc this
    rw [LinkDisk.follow, if_neg hd']
    have : T'.noFolder cur = T.noFolder cur := by
      unfold Disk.noFolder
      rw [hcontent]
    rw [this, he']

/-- The folder in which `mkdir` looks for the last name is there. -/
def MkdirReaches (T : LinkDisk) (p : RawPath) : Prop :=
  ∃ m, T.follow 40 (if p.abs then [] else H.cwd) (p.parts.rdropWhile fun x => decide (x = [])).dropLast = .ok m ∧ T.isDir m = true

theorem reaches_there (T : LinkDisk) (p : RawPath) (hne : (p.parts.rdropWhile fun x => decide (x = [])) ≠ []) (hd : T.dirAt H.cwd p = true) :
    MkdirReaches H T p := by
  unfold LinkDisk.dirAt LinkDisk.find at hd
  cases he : p.isEmpty with
  | true =>
    rw [he] at hd
    cases hd
  | false =>
    rw [he] at hd
    simp only [Bool.false_eq_true, if_false] at hd
    obtain ⟨t, ht, -⟩ := rdropWhile_split (fun x : List Char => decide (x = [])) p.parts
    unfold MkdirReaches
    set parts := p.parts.rdropWhile fun x => decide (x = []) with hparts
    have hl : parts = parts.dropLast ++ [parts.getLast hne] := (List.dropLast_append_getLast hne).symm
    cases hf : T.follow 40 (if p.abs then [] else H.cwd) p.parts with
    | error e =>
      rw [hf] at hd
      cases hd
    | ok l =>
      obtain ⟨k, hk, hkl⟩ := (follow_iff T 40 _ _ l).mp hf
      rw [ht, hl, List.append_assoc] at hkl
      obtain ⟨m, k1, k2, rfl, h1, h2⟩ := leads_split hkl
      refine ⟨m, (follow_iff T 40 _ _ m).mpr ⟨k1, by omega, h1⟩, ?_⟩
      cases h2 with
      | step h _ _ => exact h
      | jump h _ _ => exact h

theorem reaches_ok (T : LinkDisk) (p : RawPath) (l : Place) (h : H.linkMkdir T p = .ok l) : MkdirReaches H T p := by
  unfold Host.linkMkdir at h
  unfold MkdirReaches
  split at h
  · cases h
  · dsimp only at h
    split at h
    · cases h
    · split at h
      · cases h
      · rename_i dir hdir
        split at h
        · rename_i hd
          exact ⟨dir, hdir, hd⟩
        · cases h

theorem reaches_before {T T' : LinkDisk} (hg : ∀ m, T.isDir m = true → T'.isDir m = true) (hlink : T'.link = T.link)
    (hcontent : T'.content = T.content) (hT' : T'.Sound) (p : RawPath) (hpe : p.isEmpty = false)
    (hne : (p.parts.rdropWhile fun x => decide (x = [])) ≠ []) (h : H.linkMkdir T p ≠ .error .notFound) (h' : MkdirReaches H T' p) :
    MkdirReaches H T p := by
  obtain ⟨m, h1, h2⟩ := h'
  unfold Host.linkMkdir at h
  unfold MkdirReaches
  rw [hpe] at h
  simp only [Bool.false_eq_true, if_false] at h
  rw [List.getLast?_eq_some_getLast hne] at h
  dsimp only at h
  cases hf : T.follow 40 (if p.abs then [] else H.cwd) (p.parts.rdropWhile fun x => decide (x = [])).dropLast with
  | error e =>
    rw [hf] at h
    dsimp only at h
    have := follow_error_grows hg hlink hcontent hT' _ _ _ e hf (fun he => h (by rw [he]))
    rw [this] at h1
    cases h1
  | ok dir =>
    rw [hf] at h
    dsimp only at h
    by_cases hd : T.isDir dir = true
    · exact ⟨dir, rfl, hd⟩
    · rw [if_neg hd] at h
      exfalso
      have hw := follow_grows hg hlink hf
      rw [h1] at hw
      cases Except.ok.inj hw
      have hc := hT'.tree.apart _ h2
      rw [hcontent] at hc
      apply h
      unfold Disk.noFolder
      rw [hc]
      rfl

theorem reaches_parent (T : LinkDisk) (p q : RawPath) (hq : p.parent = some q) (hqe : q.isEmpty = false) (h : MkdirReaches H T p) :
    T.dirAt H.cwd q = true := by
  obtain ⟨m, h1, h2⟩ := h
  obtain ⟨r, hr⟩ := parent_before p q hq
  rw [← hr] at h1
  obtain ⟨k, hk, hkl⟩ := (follow_iff T 40 _ _ m).mp h1
  obtain ⟨m', k1, k2, rfl, l1, l2⟩ := leads_split hkl
  have hd : T.isDir m' = true := by
    cases l2 with
    | here => exact h2
    | step h _ _ => exact h
    | jump h _ _ => exact h
  unfold LinkDisk.dirAt LinkDisk.find
  rw [hqe, (parent_prefix p q hq).1]
  simp only [Bool.false_eq_true, if_false]
  rw [(follow_iff T 40 _ _ m').mpr ⟨k1, by omega, l1⟩]
  exact hd

/-- C102: making the output folder again after an attempt that was interrupted when it had made the first `n` of the folders makes exactly the
remaining ones. -/
theorem link_folders_resume (T : LinkDisk) (hT : T.Sound) (p : RawPath) (hp : ∀ m ∈ p.parts, '/' ∉ m) (ls : List Place)
    (h : H.linkCreateDirAll T p = (ls, none)) (n : Nat) : H.linkCreateDirAll (T.addDirs (ls.take n)) p = (ls.drop n, none) := by
  induction hlen : p.parts.length using Nat.strong_induction_on generalizing p ls with
  | _ len ih =>
  cases he : p.isEmpty with
  | true =>
    rw [Host.linkCreateDirAll, he] at h
    cases h
    rw [Host.linkCreateDirAll, he, List.drop_nil]
    rfl
  | false =>
  obtain ⟨f1, f2, f3⟩ := link_folders_made H T hT p hp
  rw [h] at f1 f2 f3
  by_cases hn : ls.length ≤ n
  · rw [List.take_of_length_le hn, List.drop_of_length_le hn]
    have hS := f1 ls.length
    rw [List.take_length] at hS
    exact link_folder_there H hS p hp (f3 rfl he)
  rw [not_le] at hn
  cases hm : H.linkMkdir T p with
  | ok l =>
    rw [link_made_ok H T p he l hm] at h
    cases h
    have : n = 0 := by simpa using hn
    subst this
    exact link_made_ok H T p he l hm
  | error e =>
  by_cases hnf : e = .notFound
  swap
  · rw [link_made_error H T p he e hnf hm] at h
    by_cases hd : T.dirAt H.cwd p = true
    · rw [if_pos hd] at h
      cases h
      simp at hn
    · rw [if_neg hd] at h
      cases h
  subst hnf
  cases hq : p.parent with
  | none =>
    rw [link_made_top H T p he hm hq] at h
    cases h
  | some q =>
  have hdeep := h
  rw [link_made_deeper H T p q he hm hq] at hdeep
  rcases hc : H.linkCreateDirAll T q with ⟨ls', r⟩
  rw [hc] at hdeep
  cases r with
  | some e => cases hdeep
  | none =>
  dsimp only at hdeep
  obtain ⟨qabs, qpre⟩ := parent_prefix p q hq
  have hqp : ∀ m ∈ q.parts, '/' ∉ m := fun m hm => hp m (qpre.subset hm)
  have ihq := ih q.parts.length (hlen ▸ RawPath.parent_length p q hq) q hqp ls' hc rfl
  obtain ⟨g1, -, -⟩ := link_folders_made H T hT q hqp
  rw [hc] at g1
  have hSfull := g1 ls'.length
  rw [List.take_length] at hSfull
  have hparts : (p.parts.rdropWhile fun x => decide (x = [])) ≠ [] := by
    intro h0
    unfold Host.linkMkdir at hm
    rw [he] at hm
    simp only [Bool.false_eq_true, if_false] at hm
    rw [h0] at hm
    cases hm
  -- the way is not there yet while folders of the parent are missing
  have hyet : n < ls'.length → MkdirReaches H (T.addDirs ls') p → H.linkMkdir (T.addDirs (ls'.take n)) p = .error .notFound := by
    intro hlt hr
    by_contra hne
    have hr' := reaches_before H (T := T.addDirs (ls'.take n)) (T' := T.addDirs ls')
      (fun m hm => by
        rcases (linkAddDirs_isDir T _ m).mp hm with hm | hm
        · exact (linkAddDirs_isDir T _ m).mpr (Or.inl hm)
        · exact (linkAddDirs_isDir T _ m).mpr (Or.inr (List.mem_of_mem_take hm))) rfl
      ((addDirs_content T.toDisk ls').trans (addDirs_content T.toDisk (ls'.take n)).symm) hSfull p he hparts hne hr
    have hqe : q.isEmpty = false := by
      cases hqe : q.isEmpty with
      | false => rfl
      | true =>
        rw [Host.linkCreateDirAll, hqe] at hc
        cases hc
        simp at hlt
    have hthere := reaches_parent H _ p q hq hqe hr'
    have := link_folder_there H (g1 n) q hqp hthere
    rw [ihq] at this
    have hdrop : ls'.drop n = [] := congrArg Prod.fst this
    rw [List.drop_eq_nil_iff] at hdrop
    omega
  have hjoin : (T.addDirs (ls'.take n)).addDirs (ls'.drop n) = T.addDirs ls' := by
    rw [← linkAddDirs_append, List.take_append_drop]
  cases hm2 : H.linkMkdir (T.addDirs ls') p with
  | ok l =>
    rw [hm2] at hdeep
    cases hdeep
    by_cases hlt : n < ls'.length
    · rw [List.take_append_of_le_length (by omega), List.drop_append_of_le_length (by omega)]
      rw [link_made_deeper H _ p q he (hyet hlt (reaches_ok H _ p l hm2)) hq, ihq]
      dsimp only
      rw [hjoin, hm2]
    · have : n = ls'.length := by
        simp at hn
        omega
      subst this
      rw [List.take_left', List.drop_left' rfl]
      · exact link_made_ok H _ p he l hm2
      · rfl
  | error e =>
    rw [hm2] at hdeep
    dsimp only at hdeep
    by_cases hd : (T.addDirs ls').dirAt H.cwd p = true
    swap
    · rw [if_neg hd] at hdeep
      cases hdeep
    rw [if_pos hd] at hdeep
    cases hdeep
    rw [link_made_deeper H _ p q he (hyet hn (reaches_there H _ p hparts hd)) hq, ihq]
    dsimp only
    rw [hjoin, hm2]
    dsimp only
    rw [if_pos hd]

end
end Sia
