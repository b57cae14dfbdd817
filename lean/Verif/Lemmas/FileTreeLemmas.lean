import Verif.Spec.FileTreeSpec

/-! Path resolution and the making of folders on a tree (used for C95, C96). -/
namespace Sia

theorem walk_append (D : Disk) (cur : Place) (a b : List (List Char)) :
    D.walk cur (a ++ b) = match D.walk cur a with
      | .ok l => D.walk l b
      | .error e => .error e := by
  induction a generalizing cur with
  | nil => rfl
  | cons c a ih =>
    simp only [List.cons_append, Disk.walk]
    by_cases h : D.isDir cur = true
    · simp only [h, if_true, ih]
    · simp only [h, if_false, Bool.false_eq_true]

/-- More folders keep what a path leads to. -/
theorem walk_grows {D D' : Disk} (h : ∀ l, D.isDir l = true → D'.isDir l = true) {cur : Place} {cs : List (List Char)} {m : Place}
    (hw : D.walk cur cs = .ok m) : D'.walk cur cs = .ok m := by
  induction cs generalizing cur with
  | nil => exact hw
  | cons c cs ih =>
    simp only [Disk.walk] at hw ⊢
    by_cases hd : D.isDir cur = true
    · simp only [hd, if_true] at hw
      simp only [h _ hd, if_true]
      exact ih hw
    · simp only [hd, if_false, Bool.false_eq_true] at hw
      cases hw

theorem find_grows {D D' : Disk} (h : ∀ l, D.isDir l = true → D'.isDir l = true) {cwd : Place} {p : RawPath} {m : Place}
    (hw : D.find cwd p = .ok m) : D'.find cwd p = .ok m := by
  unfold Disk.find at hw ⊢
  split at hw
  · cases hw
  · rename_i hp
    rw [if_neg hp]
    exact walk_grows h hw

theorem toOption_eq_some {ε α : Type} (r : Except ε α) (a : α) : r.toOption = some a ↔ r = .ok a := by
  cases r with
  | ok b => simp [Except.toOption]
  | error e => simp [Except.toOption]

/-- What a path leads to depends only on the folders. -/
theorem find_toOption {D D' : Disk} (h : D.isDir = D'.isDir) (cwd : Place) (p : RawPath) :
    (D.find cwd p).toOption = (D'.find cwd p).toOption := by
  apply Option.ext
  intro m
  rw [toOption_eq_some, toOption_eq_some]
  exact ⟨find_grows fun l hl => h ▸ hl, find_grows fun l hl => h ▸ hl⟩

theorem find_ok_iff {D D' : Disk} (h : D.isDir = D'.isDir) (cwd : Place) (p : RawPath) (m : Place) :
    D.find cwd p = .ok m ↔ D'.find cwd p = .ok m :=
  ⟨find_grows fun l hl => h ▸ hl, find_grows fun l hl => h ▸ hl⟩

theorem onward_proper (cur : Place) (n : List Char) (hn : ProperName n) : onward cur n = cur ++ [n] := by
  obtain ⟨h1, _, h2, h3⟩ := hn
  unfold onward
  rw [if_neg (by rintro (h | h); exact h1 h; exact h2 h), if_neg h3]

/-- A path of proper names goes straight down. -/
theorem walk_down (D : Disk) (cur : Place) (names : List (List Char)) (hn : ∀ n ∈ names, ProperName n)
    (hd : ∀ k < names.length, D.isDir (cur ++ names.take k) = true) : D.walk cur names = .ok (cur ++ names) := by
  induction names generalizing cur with
  | nil => simp [Disk.walk]
  | cons n names ih =>
    have h0 := hd 0 (by simp)
    simp only [List.take_zero, List.append_nil] at h0
    simp only [Disk.walk, h0, if_true]
    rw [onward_proper cur n (hn n List.mem_cons_self)]
    rw [ih (cur ++ [n]) (fun m hm => hn m (List.mem_cons_of_mem _ hm))]
    · simp
    · intro k hk
      have := hd (k + 1) (by simpa using hk)
      simpa using this

/-- In a sound tree every folder above a folder is a folder. -/
theorem Disk.Sound.above {D : Disk} (hD : D.Sound) (l m : Place) (h : D.isDir (l ++ m) = true) : D.isDir l = true := by
  induction m using List.reverseRecOn with
  | nil => simpa using h
  | append_singleton m n ih =>
    refine ih ?_
    rw [← List.append_assoc] at h
    exact (hD.inside _ _ (Or.inl h)).1

theorem Disk.Sound.proper {D : Disk} (hD : D.Sound) (l : Place) (h : D.isDir l = true) : ∀ n ∈ l, ProperName n := by
  intro n hn
  obtain ⟨a, b, rfl⟩ := List.append_of_mem hn
  have : D.isDir (a ++ [n]) = true := hD.above (a ++ [n]) b (by simpa using h)
  exact (hD.inside _ _ (Or.inl this)).2

/-- The absolute path of a folder leads to the folder. -/
theorem Disk.Sound.walk_root {D : Disk} (hD : D.Sound) (l : Place) (h : D.isDir l = true) : D.walk [] l = .ok l := by
  have := walk_down D [] l (hD.proper l h) fun k _ => hD.above _ (l.drop k) (by simpa using h)
  simpa using this

/-- Going on from a folder never leaves the tree. -/
theorem walk_occupied_or {D : Disk} (hD : D.Sound) (cur : Place) (hc : D.isDir cur = true) (cs : List (List Char)) (m : Place)
    (hw : D.walk cur cs = .ok m) : D.isDir m = true ∨ ∃ l c, m = l ++ [c] ∧ D.isDir l = true := by
  induction cs using List.reverseRecOn generalizing m with
  | nil =>
    cases hw
    exact Or.inl hc
  | append_singleton cs c _ =>
    rw [walk_append] at hw
    split at hw
    · rename_i l hl
      simp only [Disk.walk] at hw
      split at hw
      · rename_i hd
        cases hw
        unfold onward
        split
        · exact Or.inl hd
        · split
          · left
            rcases List.eq_nil_or_concat l with rfl | ⟨a, b, rfl⟩
            · exact hd
            · have : D.isDir (a ++ [b]) = true := by simpa using hd
              simpa using (hD.inside a b (Or.inl this)).1
          · exact Or.inr ⟨l, c, rfl, hd⟩
      · cases hw
    · cases hw

theorem splitOn_names (n : List Char) (hn : '/' ∉ n) (rest : List (List Char)) (hr : ∀ m ∈ rest, '/' ∉ m) :
    (n ++ rest.flatMap fun name => '/' :: name).splitOn '/' = n :: rest := by
  induction rest generalizing n with
  | nil => simpa using List.splitOn_eq_singleton hn
  | cons m rest ih =>
    simp only [List.flatMap_cons, List.cons_append]
    rw [List.splitOn_append_cons_self, List.splitOn_eq_singleton hn, ih m (hr m List.mem_cons_self) fun x hx => hr x (List.mem_cons_of_mem _ hx)]
    rfl

theorem parsePath_flat (n : List Char) (rest : List (List Char)) (hr : ∀ m ∈ n :: rest, '/' ∉ m) :
    parsePath ((n :: rest).flatMap fun name => '/' :: name) = ⟨true, n :: rest⟩ := by
  simp only [List.flatMap_cons, List.cons_append, parsePath, if_true]
  rw [splitOn_names n (hr n List.mem_cons_self) rest fun m hm => hr m (List.mem_cons_of_mem _ hm)]

/-- A name in a folder given by its absolute path. -/
theorem find_inside {D : Disk} (hD : D.Sound) (cwd l : Place) (h : D.isDir l = true) (name : List Char) (hn : ProperName name) :
    D.find cwd (parsePath (absolute l ++ ['/'] ++ name)) = .ok (l ++ [name]) := by
  have hw := hD.walk_root l h
  rcases l with _ | ⟨n, rest⟩
  · show D.find cwd (parsePath ('/' :: '/' :: name)) = _
    have e : parsePath ('/' :: '/' :: name) = ⟨true, [[], name]⟩ := by
      show RawPath.mk true (('/' :: name).splitOn '/') = _
      have := List.splitOn_append_cons_self (a := '/') [] name
      rw [List.nil_append] at this
      rw [this, List.splitOn_eq_singleton hn.2.1]
      rfl
    rw [e]
    unfold Disk.find
    simp only [RawPath.isEmpty, Bool.not_true, Bool.false_and, Bool.false_eq_true, if_false, if_true]
    simp only [Disk.walk, h, if_true]
    have : onward [] [] = [] := by simp [onward]
    rw [this, h, if_pos rfl, onward_proper _ _ hn]
  · have e : absolute (n :: rest) ++ ['/'] ++ name = ((n :: (rest ++ [name])).flatMap fun name => '/' :: name) := by
      unfold absolute
      rw [if_neg (by simp)]
      simp
    have hs : ∀ m ∈ n :: (rest ++ [name]), '/' ∉ m := by
      intro m hm
      have : m ∈ n :: rest ∨ m = name := by simpa [or_assoc] using hm
      rcases this with hm | rfl
      · exact (hD.proper _ h m hm).2.1
      · exact hn.2.1
    rw [e, parsePath_flat n _ hs]
    unfold Disk.find
    simp only [RawPath.isEmpty, Bool.not_true, Bool.false_and, Bool.false_eq_true, if_false, if_true]
    rw [← List.cons_append, walk_append, hw]
    show D.walk (n :: rest) [name] = _
    simp only [Disk.walk, h, if_true]
    rw [onward_proper _ _ hn]

/-- A bare name in the current folder. -/
theorem find_here (D : Disk) (cwd : Place) (h : D.isDir cwd = true) (name : List Char) (hn : ProperName name) :
    D.find cwd (parsePath name) = .ok (cwd ++ [name]) := by
  rcases name with _ | ⟨c, cs⟩
  · exact absurd rfl hn.1
  · have hc : c ≠ '/' := fun hc => hn.2.1 (hc ▸ List.mem_cons_self)
    have e : parsePath (c :: cs) = ⟨false, [c :: cs]⟩ := by
      unfold parsePath
      simp only [hc, if_false]
      rw [List.splitOn_eq_singleton hn.2.1]
    rw [e]
    unfold Disk.find
    simp only [RawPath.isEmpty, List.isEmpty_cons, Bool.and_false, Bool.false_eq_true, if_false]
    simp only [Disk.walk, h, if_true]
    rw [onward_proper _ _ hn]

/-- The parts of a path have no slash. -/
theorem mem_splitOn (p m : List Char) (h : m ∈ p.splitOn '/') : '/' ∉ m := by
  induction p generalizing m with
  | nil =>
    have : m = [] := by simpa using h
    simp [this]
  | cons x xs ih =>
    rw [List.splitOn_cons_eq_if_modifyHead] at h
    split at h
    · rcases List.mem_cons.mp h with rfl | h
      · simp
      · exact ih m h
    · rename_i hx
      have hx' : x ≠ '/' := by simpa using hx
      rcases hq : xs.splitOn '/' with _ | ⟨y, ys⟩
      · rw [hq] at h
        simp at h
      · rw [hq] at h
        simp only [List.modifyHead_cons] at h
        rcases List.mem_cons.mp h with rfl | h
        · have := ih y (by rw [hq]; exact List.mem_cons_self)
          simp only [List.mem_cons, not_or]
          exact ⟨fun e => hx' e.symm, this⟩
        · exact ih m (by rw [hq]; exact List.mem_cons_of_mem _ h)

/-- The name of an output file is proper if the suffix has no slash. -/
theorem output_name_proper (input stem ext suffix : List Char) (hname : NamedAs input stem ext) (hs : '/' ∉ suffix) :
    ProperName (stem ++ '-' :: suffix ++ '.' :: ext) := by
  obtain ⟨h1, h2, h3⟩ := hname
  have hno : '/' ∉ stem ++ '.' :: ext := by
    unfold fileName at h1
    split at h1
    · cases h1
    · rename_i c hc
      split at h1
      · cases h1
      · cases h1
        have hm := List.mem_of_getLast? hc
        have hm' := (List.mem_filter.mp hm).1
        exact mem_splitOn _ _ hm'
  have hse : '/' ∉ stem ∧ '/' ∉ ext := by
    simp only [List.mem_append, List.mem_cons, not_or] at hno
    exact ⟨hno.1, hno.2.2⟩
  refine ⟨by simp, ?_, ?_, ?_⟩
  · simp only [List.mem_append, List.mem_cons, not_or]
    exact ⟨⟨hse.1, by decide, hs⟩, by decide, hse.2⟩
  · intro h
    have := congrArg List.length h
    simp at this
    omega
  · intro h
    have h' : '-' ∈ stem ++ '-' :: suffix ++ '.' :: ext := by simp
    rw [h] at h'
    revert h'
    decide

end Sia
