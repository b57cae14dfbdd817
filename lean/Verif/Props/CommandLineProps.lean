import Verif.Model.Getopts
import Verif.Spec.CommandLineSpec
import Verif.Props.CliProps

/-! C68: the command line is read as its grammar says. -/
namespace Sia

/-- The values after some items. -/
def OptVals.add (v : OptVals) (is : List Item) : OptVals :=
  ⟨v.suffix ++ suffixValues is, v.output ++ outputValues is, v.help + is.count .help, v.free ++ fileNames is⟩

theorem OptVals.add_nil (v : OptVals) : v.add [] = v := by
  cases v; simp [OptVals.add, suffixValues, outputValues, fileNames]

theorem OptVals.add_append (v : OptVals) (is js : List Item) : v.add (is ++ js) = (v.add is).add js := by
  simp [OptVals.add, suffixValues, outputValues, fileNames, List.filterMap_append, List.count_append, Nat.add_assoc]

theorem OptVals.add_replicate (v : OptVals) (k : ℕ) : v.add (List.replicate k .help) = { v with help := v.help + k } := by
  have h1 : suffixValues (List.replicate k .help) = [] := by
    simp [suffixValues, List.filterMap_replicate]
  have h2 : outputValues (List.replicate k .help) = [] := by
    simp [outputValues, List.filterMap_replicate]
  have h3 : fileNames (List.replicate k .help) = [] := by
    simp [fileNames, List.filterMap_replicate]
  simp [OptVals.add, h1, h2, h3]

/-- The option of a letter. -/
theorem findShort_value {c : Char} {mk : List Char → Item} (h : ValueOption c mk) :
    ∃ id : OptId, findShort c = some id ∧ id.takesArg = true ∧ ∀ (v : OptVals) (x : List Char), v.push id x = v.add [mk x] := by
  cases h
  · exact ⟨.suffix, by decide, rfl, fun v x => by simp [OptVals.push, OptVals.add, suffixValues, outputValues, fileNames]⟩
  · exact ⟨.output, by decide, rfl, fun v x => by simp [OptVals.push, OptVals.add, suffixValues, outputValues, fileNames]⟩

theorem findShort_cases {c : Char} {id : OptId} (h : findShort c = some id) :
    (c = 'h' ∧ id = .help) ∨ ∃ mk, ValueOption c mk := by
  unfold findShort at h
  split at h
  · rename_i h1; subst h1; exact .inr ⟨_, .s⟩
  · split at h
    · rename_i _ h1; subst h1; exact .inr ⟨_, .o⟩
    · split at h
      · rename_i _ _ h1; exact .inl ⟨h1, by cases h; rfl⟩
      · cases h

theorem applyNames_inner {id : OptId} (h : id.takesArg = true) (ids : List OptId) (x : List Char) (rest : List (List Char))
    (v : OptVals) : applyNames (id :: ids) (some x) rest v = applyNames ids none rest (v.push id x) := by
  rw [applyNames.eq_def]; simp [h]

theorem applyNames_next {id : OptId} (h : id.takesArg = true) (ids : List OptId) (y : List Char) (rest : List (List Char))
    (v : OptVals) : applyNames (id :: ids) none (y :: rest) v = applyNames ids none rest (v.push id y) := by
  rw [applyNames.eq_def]; simp [h]

theorem applyNames_end {id : OptId} (h : id.takesArg = true) (ids : List OptId) (v : OptVals) :
    applyNames (id :: ids) none [] v = .error (.argumentMissing id) := by
  rw [applyNames.eq_def]; simp [h]

theorem applyNames_flag (ids : List OptId) (a : Option (List Char)) (rest : List (List Char)) (v : OptVals) :
    applyNames (.help :: ids) a rest v = if ids = [] ∧ a.isSome = true then .error (.unexpectedArgument .help)
      else applyNames ids a rest (v.push .help []) := by
  rw [applyNames.eq_def]; simp [OptId.takesArg]

theorem applyNames_nil (a : Option (List Char)) (rest : List (List Char)) (v : OptVals) :
    applyNames [] a rest v = .ok (v, rest) := by
  rw [applyNames.eq_def]

theorem applyNames_helps (k : ℕ) (ids : List OptId) (a : Option (List Char)) (rest : List (List Char))
    (h : ids ≠ [] ∨ a = none) : ∀ v : OptVals, applyNames (List.replicate k .help ++ ids) a rest v =
      applyNames ids a rest (v.add (List.replicate k .help)) := by
  induction k with
  | zero => intro v; simp [OptVals.add_nil]
  | succ k ih =>
    intro v
    rw [List.replicate_succ, List.cons_append, applyNames_flag]
    have hc : ¬ (List.replicate k OptId.help ++ ids = [] ∧ a.isSome = true) := by
      rintro ⟨h1, h2⟩
      rcases h with h | h
      · exact h (List.append_eq_nil_iff.mp h1).2
      · rw [h] at h2; cases h2
    rw [if_neg hc, ih, OptVals.add_replicate, OptVals.add_replicate]
    congr 1
    simp [OptVals.push]; omega

theorem collectShorts_helps (k : ℕ) (cs : List Char) : collectShorts (List.replicate k 'h' ++ cs) =
    (collectShorts cs).map fun p => (List.replicate k .help ++ p.1, p.2) := by
  induction k with
  | zero => simp; cases collectShorts cs <;> rfl
  | succ k ih =>
    rw [List.replicate_succ, List.cons_append, collectShorts]
    have : findShort 'h' = some .help := by decide
    rw [this]
    dsimp only
    rw [if_neg (by simp [OptId.takesArg]), ih]
    cases collectShorts cs <;> rfl

theorem optionWord_short (cs : List Char) (h : cs.head? ≠ some '-') : optionWord ('-' :: cs) = collectShorts cs := by
  unfold optionWord
  split
  · rename_i heq; simp only [List.cons.injEq, true_and] at heq; rw [heq] at h; simp at h
  · rfl

/-- One group of words is read as its items. -/
theorem parseLoop_words {is : List Item} {ws : List (List Char)} (h : Words is ws) (rest : List (List Char)) (v : OptVals) :
    parseLoop (ws ++ rest) v = parseLoop rest (v.add is) := by
  cases h with
  | file name hn =>
    have h1 : isOptArg name = false := by
      unfold isOptArg
      split
      · rename_i c cs
        rcases hn with hn | hn
        · simp at hn
        · simp at hn
      · rfl
    rw [List.singleton_append, parseLoop, if_pos h1]
    simp [OptVals.add, suffixValues, outputValues, fileNames]
  | flags k hk =>
    obtain ⟨k, rfl⟩ : ∃ j, k = j + 1 := ⟨k - 1, by omega⟩
    have h1 : isOptArg ('-' :: List.replicate (k + 1) 'h') = true := by simp [isOptArg, List.replicate_succ]
    have h2 : '-' :: List.replicate (k + 1) 'h' ≠ ['-', '-'] := by simp [List.replicate_succ]
    have h3 : optionWord ('-' :: List.replicate (k + 1) 'h') = .ok (List.replicate (k + 1) .help, none) := by
      have := collectShorts_helps (k + 1) []
      rw [List.append_nil] at this
      unfold optionWord
      split
      · rename_i heq; simp [List.replicate_succ] at heq
      · rw [List.tail_cons, this]; simp [collectShorts, Except.map]
    have h4 := applyNames_helps (k + 1) [] none rest (.inr rfl) v
    rw [List.append_nil, applyNames_nil] at h4
    rw [List.singleton_append, parseLoop, if_neg (by simp [h1]), if_neg h2, h3]
    dsimp only
    split
    · rename_i e he; rw [h4] at he; cases he
    · rename_i v' r' he; rw [h4] at he; cases he; rfl
  | joined k c mk value hc hv =>
    obtain ⟨id, e1, e2, e3⟩ := findShort_value hc
    set w := '-' :: (List.replicate k 'h' ++ c :: value) with hw
    have hne : c ≠ '-' := by cases hc <;> decide
    have h1 : isOptArg w = true := by cases k <;> simp [hw, isOptArg, List.replicate_succ]
    have h2 : w ≠ ['-', '-'] := by
      cases k
      · simp [hw, hne]
      · simp [hw, List.replicate_succ]
    have h3 : optionWord w = .ok (List.replicate k .help ++ [id], some value) := by
      rw [hw, optionWord_short _ (by cases k <;> simp [hne, List.replicate_succ]), collectShorts_helps, collectShorts, e1]; simp [e2, hv, Except.map]
    have h4 := applyNames_helps k [id] (some value) rest (.inl (by simp)) v
    rw [applyNames_inner e2, applyNames_nil, e3, ← OptVals.add_append] at h4
    rw [List.singleton_append, parseLoop, if_neg (by simp [h1]), if_neg h2, h3]
    dsimp only
    split
    · rename_i e he; rw [h4] at he; cases he
    · rename_i v' r' he; rw [h4] at he; cases he; rfl
  | separate k c mk value hc =>
    obtain ⟨id, e1, e2, e3⟩ := findShort_value hc
    set w := '-' :: (List.replicate k 'h' ++ [c]) with hw
    have hne : c ≠ '-' := by cases hc <;> decide
    have h1 : isOptArg w = true := by cases k <;> simp [hw, isOptArg, List.replicate_succ]
    have h2 : w ≠ ['-', '-'] := by
      cases k
      · simp [hw, hne]
      · simp [hw, List.replicate_succ]
    have h3 : optionWord w = .ok (List.replicate k .help ++ [id], none) := by
      rw [hw, optionWord_short _ (by cases k <;> simp [hne, List.replicate_succ]), collectShorts_helps, collectShorts, e1]; simp [collectShorts, Except.map]
    have h4 := applyNames_helps k [id] none (value :: rest) (.inl (by simp)) v
    rw [applyNames_next e2, applyNames_nil, e3, ← OptVals.add_append] at h4
    rw [show [w, value] ++ rest = w :: value :: rest from rfl, parseLoop, if_neg (by simp [h1]), if_neg h2, h3]
    dsimp only
    split
    · rename_i e he; rw [h4] at he; cases he
    · rename_i v' r' he; rw [h4] at he; cases he; rfl
  | longHelp =>
    rw [List.singleton_append, parseLoop, if_neg (by decide), if_neg (by decide)]
    have h3 : optionWord ['-', '-', 'h', 'e', 'l', 'p'] = .ok ([.help], none) := by rfl
    have h4 := applyNames_helps 1 [] none rest (.inr rfl) v
    rw [List.append_nil, applyNames_nil] at h4
    rw [h3]
    dsimp only
    split
    · rename_i e he; rw [show [OptId.help] = List.replicate 1 .help from rfl, h4] at he; cases he
    · rename_i v' r' he; rw [show [OptId.help] = List.replicate 1 .help from rfl, h4] at he; cases he; rfl
  | longH =>
    rw [List.singleton_append, parseLoop, if_neg (by decide), if_neg (by decide)]
    have h3 : optionWord ['-', '-', 'h'] = .ok ([.help], none) := by rfl
    have h4 := applyNames_helps 1 [] none rest (.inr rfl) v
    rw [List.append_nil, applyNames_nil] at h4
    rw [h3]
    dsimp only
    split
    · rename_i e he; rw [show [OptId.help] = List.replicate 1 .help from rfl, h4] at he; cases he
    · rename_i v' r' he; rw [show [OptId.help] = List.replicate 1 .help from rfl, h4] at he; cases he; rfl
  | longJoined c mk value hc =>
    obtain ⟨id, e1, e2, e3⟩ := findShort_value hc
    have hne : c ≠ '=' := by cases hc <;> decide
    have h3 : optionWord ('-' :: '-' :: c :: '=' :: value) = .ok ([id], some value) := by
      simp [optionWord, hne, List.takeWhile, List.dropWhile, findName, e1]
    rw [List.singleton_append, parseLoop, if_neg (by simp [isOptArg]), if_neg (by simp), h3]
    have h4 : applyNames [id] (some value) rest v = .ok (v.add [mk value], rest) := by
      rw [applyNames_inner e2, applyNames_nil, e3]
    dsimp only
    split
    · rename_i e he; rw [h4] at he; cases he
    · rename_i v' r' he; rw [h4] at he; cases he; rfl
  | longSeparate c mk value hc =>
    obtain ⟨id, e1, e2, e3⟩ := findShort_value hc
    have hne : c ≠ '=' := by cases hc <;> decide
    have h3 : optionWord ['-', '-', c] = .ok ([id], none) := by
      simp [optionWord, hne, List.takeWhile, List.dropWhile, findName, e1]
    rw [show [['-', '-', c], value] ++ rest = ['-', '-', c] :: value :: rest from rfl, parseLoop,
      if_neg (by simp [isOptArg]), if_neg (by simp), h3]
    have h4 : applyNames [id] none (value :: rest) v = .ok (v.add [mk value], rest) := by
      rw [applyNames_next e2, applyNames_nil, e3]
    dsimp only
    split
    · rename_i e he; rw [h4] at he; cases he
    · rename_i v' r' he; rw [h4] at he; cases he; rfl

theorem fileNames_map (files : List (List Char)) : fileNames (files.map .file) = files := by
  induction files with
  | nil => rfl
  | cons f fs ih => simp only [List.map_cons, fileNames, List.filterMap_cons]; rw [show List.filterMap _ (fs.map Item.file) = fs from ih]

theorem add_files (v : OptVals) (files : List (List Char)) : v.add (files.map .file) = { v with free := v.free ++ files } := by
  have h1 : suffixValues (files.map .file) = [] := by simp [suffixValues, List.filterMap_map]
  have h2 : outputValues (files.map .file) = [] := by simp [outputValues, List.filterMap_map]
  have h3 : (files.map Item.file).count .help = 0 := by
    rw [List.count_eq_zero]; simp
  simp [OptVals.add, h1, h2, h3, fileNames_map]

/-- A command line of the grammar is read as its items. -/
theorem parseLoop_commandLine {is : List Item} {args : List (List Char)} (h : CommandLine is args) :
    ∀ v : OptVals, parseLoop args v = .ok (v.add is) := by
  induction h with
  | done => intro v; rw [parseLoop, OptVals.add_nil]
  | dashes files =>
    intro v
    rw [parseLoop, if_neg (by decide), if_pos rfl, add_files]
  | more is js ws vs hw _ ih =>
    intro v
    rw [parseLoop_words hw, ih, OptVals.add_append]

/-- What a series of short options can be. -/
theorem collectShorts_cases (cs : List Char) : ∀ (ids : List OptId) (a : Option (List Char)), collectShorts cs = .ok (ids, a) →
    (∃ k, cs = List.replicate k 'h' ∧ ids = List.replicate k .help ∧ a = none) ∨
    (∃ k c mk id, ValueOption c mk ∧ findShort c = some id ∧ ids = List.replicate k .help ++ [id] ∧
      ((a = none ∧ cs = List.replicate k 'h' ++ [c]) ∨
        ∃ value, value ≠ [] ∧ a = some value ∧ cs = List.replicate k 'h' ++ c :: value)) := by
  induction cs with
  | nil => intro ids a h; simp only [collectShorts, Except.ok.injEq, Prod.mk.injEq] at h; exact .inl ⟨0, rfl, h.1.symm, h.2.symm⟩
  | cons c cs ih =>
    intro ids a h
    rw [collectShorts] at h
    cases hf : findShort c with
    | none => rw [hf] at h; cases h
    | some id =>
      rw [hf] at h
      dsimp only at h
      rcases findShort_cases hf with ⟨rfl, rfl⟩ | ⟨mk, hmk⟩
      · rw [if_neg (by simp [OptId.takesArg])] at h
        cases hc : collectShorts cs with
        | error e => rw [hc] at h; cases h
        | ok p =>
          obtain ⟨ids', a'⟩ := p
          rw [hc] at h
          simp only [Except.ok.injEq, Prod.mk.injEq] at h
          obtain ⟨rfl, rfl⟩ := h
          rcases ih _ _ hc with ⟨k, e1, e2, e3⟩ | ⟨k, c', mk, id', h1, h2, h3, h4⟩
          · exact .inl ⟨k + 1, by rw [e1, List.replicate_succ], by rw [e2, List.replicate_succ], e3⟩
          · refine .inr ⟨k + 1, c', mk, id', h1, h2, by rw [h3, List.replicate_succ]; rfl, ?_⟩
            rcases h4 with ⟨e1, e2⟩ | ⟨value, e1, e2, e3⟩
            · exact .inl ⟨e1, by rw [e2, List.replicate_succ]; rfl⟩
            · exact .inr ⟨value, e1, e2, by rw [e3, List.replicate_succ]; rfl⟩
      · obtain ⟨id', e1, e2, -⟩ := findShort_value hmk
        rw [hf] at e1
        cases e1
        by_cases hcs : cs = []
        · subst hcs
          rw [if_neg (by simp)] at h
          simp only [collectShorts, Except.ok.injEq, Prod.mk.injEq] at h
          exact .inr ⟨0, c, mk, id, hmk, hf, by simp [h.1.symm], .inl ⟨h.2.symm, by simp⟩⟩
        · rw [if_pos ⟨e2, hcs⟩] at h
          simp only [Except.ok.injEq, Prod.mk.injEq] at h
          exact .inr ⟨0, c, mk, id, hmk, hf, by simp [h.1.symm], .inr ⟨cs, hcs, h.2.symm, by simp⟩⟩

/-- An option word that is accepted, with what it takes from the following words, belongs to the grammar. -/
theorem option_words {cur : List Char} {rest rest' : List (List Char)} {ids : List OptId} {a : Option (List Char)} {v v' : OptVals}
    (h0 : isOptArg cur = true) (h1 : cur ≠ ['-', '-']) (h2 : optionWord cur = .ok (ids, a))
    (h3 : applyNames ids a rest v = .ok (v', rest')) :
    ∃ is ws, Words is ws ∧ cur :: rest = ws ++ rest' ∧ v' = v.add is := by
  unfold optionWord at h2
  split at h2
  · rename_i tail
    dsimp only at h2
    cases hf : findName (tail.takeWhile (· ≠ '=')) with
    | none => rw [hf] at h2; cases h2
    | some id =>
      rw [hf] at h2
      simp only [Except.ok.injEq, Prod.mk.injEq] at h2
      obtain ⟨rfl, rfl⟩ := h2
      have hsplit := List.takeWhile_append_dropWhile (p := fun c => decide (c ≠ '=')) (l := tail)
      have hdrop : ∀ c l, tail.dropWhile (fun c => decide (c ≠ '=')) = c :: l → c = '=' := by
        intro c l hcl
        have := List.head_dropWhile_not (fun c => decide (c ≠ '=')) (l := tail) (by rw [hcl]; simp)
        simp only [hcl, List.head_cons] at this
        simpa using this
      unfold findName at hf
      split at hf
      · rename_i c hname
        rcases findShort_cases hf with ⟨rfl, rfl⟩ | ⟨mk, hmk⟩
        · cases hd : tail.dropWhile (fun c => decide (c ≠ '=')) with
          | nil =>
            rw [hd, hname] at hsplit
            simp only [hd] at h3
            have h4 := applyNames_helps 1 [] none rest (.inr rfl) v
            rw [List.append_nil, applyNames_nil] at h4
            rw [show [OptId.help] = List.replicate 1 .help from rfl, h4] at h3
            cases h3
            exact ⟨[.help], [['-', '-', 'h']], .longH, by rw [← hsplit]; rfl, rfl⟩
          | cons e value =>
            simp only [hd] at h3
            rw [applyNames_flag, if_pos ⟨rfl, rfl⟩] at h3
            cases h3
        · obtain ⟨id', e1, e2, e3⟩ := findShort_value hmk
          rw [hf] at e1
          cases e1
          cases hd : tail.dropWhile (fun c => decide (c ≠ '=')) with
          | nil =>
            rw [hd, hname] at hsplit
            simp only [hd] at h3
            cases rest with
            | nil => rw [applyNames_end e2] at h3; cases h3
            | cons y rest =>
              rw [applyNames_next e2, applyNames_nil, e3] at h3
              cases h3
              exact ⟨[mk y], [['-', '-', c], y], .longSeparate c mk y hmk, by rw [← hsplit]; rfl, rfl⟩
          | cons e value =>
            have := hdrop _ _ hd
            subst this
            rw [hd, hname] at hsplit
            simp only [hd] at h3
            rw [applyNames_inner e2, applyNames_nil, e3] at h3
            cases h3
            exact ⟨[mk value], ['-' :: '-' :: c :: '=' :: value], .longJoined c mk value hmk, by rw [← hsplit]; rfl, rfl⟩
      · rename_i n hn
        split at hf
        · rename_i hname
          cases hf
          cases hd : tail.dropWhile (fun c => decide (c ≠ '=')) with
          | nil =>
            rw [hd, hname] at hsplit
            simp only [hd] at h3
            have h4 := applyNames_helps 1 [] none rest (.inr rfl) v
            rw [List.append_nil, applyNames_nil] at h4
            rw [show [OptId.help] = List.replicate 1 .help from rfl, h4] at h3
            cases h3
            exact ⟨[.help], [['-', '-', 'h', 'e', 'l', 'p']], .longHelp, by rw [← hsplit]; rfl, rfl⟩
          | cons e value =>
            simp only [hd] at h3
            rw [applyNames_flag, if_pos ⟨rfl, rfl⟩] at h3
            cases h3
        · cases hf
  · obtain ⟨cs, rfl, hcs⟩ : ∃ cs, cur = '-' :: cs ∧ cs ≠ [] := by
      unfold isOptArg at h0
      split at h0
      · exact ⟨_, rfl, by simp⟩
      · cases h0
    rw [List.tail_cons] at h2
    rcases collectShorts_cases cs _ _ h2 with ⟨k, rfl, rfl, rfl⟩ | ⟨k, c, mk, id, hmk, hf, rfl, h4⟩
    · have h4 := applyNames_helps k [] none rest (.inr rfl) v
      rw [List.append_nil, applyNames_nil] at h4
      rw [h4] at h3
      cases h3
      refine ⟨_, _, .flags k ?_, rfl, rfl⟩
      rcases Nat.eq_zero_or_pos k with rfl | hk
      · simp at hcs
      · exact hk
    · obtain ⟨id', e1, e2, e3⟩ := findShort_value hmk
      rw [hf] at e1
      cases e1
      rw [applyNames_helps k [id] a rest (.inl (by simp))] at h3
      rcases h4 with ⟨rfl, rfl⟩ | ⟨value, hv, rfl, rfl⟩
      · cases rest with
        | nil => rw [applyNames_end e2] at h3; cases h3
        | cons y rest =>
          rw [applyNames_next e2, applyNames_nil, e3, ← OptVals.add_append] at h3
          cases h3
          exact ⟨_, _, .separate k c mk y hmk, rfl, rfl⟩
      · rw [applyNames_inner e2, applyNames_nil, e3, ← OptVals.add_append] at h3
        cases h3
        exact ⟨_, _, .joined k c mk value hmk hv, rfl, rfl⟩

/-- What is read belongs to the grammar. -/
theorem commandLine_of_parseLoop (n : ℕ) : ∀ (args : List (List Char)) (v v' : OptVals), args.length ≤ n →
    parseLoop args v = .ok v' → ∃ is, CommandLine is args ∧ v' = v.add is := by
  induction n with
  | zero =>
    intro args v v' hl h
    obtain rfl : args = [] := List.length_eq_zero_iff.mp (by omega)
    rw [parseLoop] at h
    cases h
    exact ⟨[], .done, (OptVals.add_nil v).symm⟩
  | succ n ih =>
    intro args v v' hl h
    cases args with
    | nil =>
      rw [parseLoop] at h
      cases h
      exact ⟨[], .done, (OptVals.add_nil v).symm⟩
    | cons cur rest =>
      simp only [List.length_cons] at hl
      rw [parseLoop] at h
      split at h
      · rename_i hopt
        obtain ⟨is, h1, h2⟩ := ih rest _ v' (by omega) h
        refine ⟨[.file cur] ++ is, .more _ _ [cur] rest (.file cur ?_) h1, ?_⟩
        · by_contra hc
          push Not at hc
          obtain ⟨hc1, hc2⟩ := hc
          cases cur with
          | nil => simp at hc1
          | cons c cs =>
            simp only [List.head?_cons, Option.some.injEq] at hc1
            subst hc1
            cases cs with
            | nil => exact hc2 rfl
            | cons d ds => simp [isOptArg] at hopt
        · rw [h2, OptVals.add_append]
          congr 1
          simp [OptVals.add, suffixValues, outputValues, fileNames]
      · rename_i hopt
        split at h
        · rename_i hd
          subst hd
          cases h
          exact ⟨_, .dashes rest, (add_files v rest).symm⟩
        · rename_i hd
          split at h
          · cases h
          · rename_i ids a ho
            split at h
            · cases h
            · rename_i v1 rest1 ha
              obtain ⟨is, ws, hw, he, hv⟩ := option_words (by simpa using hopt) hd ho ha
              have hlen := applyNames_length _ _ _ _ _ _ ha
              obtain ⟨js, h1, h2⟩ := ih rest1 v1 v' (by omega) h
              exact ⟨is ++ js, by rw [he]; exact .more _ _ _ _ hw h1, by rw [h2, hv, OptVals.add_append]⟩

/-- C68: the program accepts exactly the command lines of the grammar that give no option twice, and understands by them what the
items say: the files in their order, the suffix, the output folder, and whether help was asked for. -/
theorem command_line_read (args : List (List Char)) (m : Matches) :
    parseArgs args = .ok m ↔ ∃ is, CommandLine is args ∧ Means is m := by
  constructor
  · intro h
    unfold parseArgs at h
    split at h
    · cases h
    · rename_i v hv
      obtain ⟨is, h1, h2⟩ := commandLine_of_parseLoop _ args _ v le_rfl hv
      simp only [OptVals.add, List.nil_append, Nat.zero_add] at h2
      subst h2
      dsimp only at h
      split at h
      · cases h
      · rename_i l1
        split at h
        · cases h
        · rename_i l2
          split at h
          · cases h
          · rename_i l3
            cases h
            refine ⟨is, h1, ⟨rfl, ?_, ?_, ?_, by omega⟩⟩
            · dsimp only
              cases hs : suffixValues is with
              | nil => rfl
              | cons x xs => cases xs with
                | nil => rfl
                | cons y ys => rw [hs] at l1; simp at l1
            · dsimp only
              cases hs : outputValues is with
              | nil => rfl
              | cons x xs => cases xs with
                | nil => rfl
                | cons y ys => rw [hs] at l2; simp at l2
            · simp [List.count_eq_zero]
  · rintro ⟨is, h1, h2⟩
    unfold parseArgs
    rw [parseLoop_commandLine h1]
    simp only [OptVals.add, List.nil_append, Nat.zero_add]
    have hl1 : (suffixValues is).length ≤ 1 := by rw [← h2.suffix]; cases m.suffix <;> simp
    have hl2 : (outputValues is).length ≤ 1 := by rw [← h2.output]; cases m.output <;> simp
    have hl3 := h2.help_once
    rw [if_neg (by omega), if_neg (by omega), if_neg (by omega), ← h2.files, ← h2.suffix, ← h2.output]
    congr 1
    cases m with
    | mk help suffix output free =>
      have hh : decide (is.count .help ≠ 0) = help := by
        have := h2.help
        dsimp only at this
        rw [Bool.eq_iff_iff, this]
        simp [List.count_eq_zero]
      rw [hh]
      cases suffix <;> cases output <;> rfl

/-- C68: a command line means one thing only. -/
theorem command_line_unambiguous {args : List (List Char)} {is js : List Item} {m m' : Matches} (h1 : CommandLine is args)
    (h2 : CommandLine js args) (h3 : Means is m) (h4 : Means js m') : m = m' := by
  have e1 := (command_line_read args m).mpr ⟨is, h1, h3⟩
  rw [(command_line_read args m').mpr ⟨js, h2, h4⟩] at e1
  cases e1
  rfl

theorem commandLine_files (files : List (List Char)) (h : ∀ f ∈ files, f.head? ≠ some '-') {is : List Item}
    {args : List (List Char)} (ha : CommandLine is args) : CommandLine (files.map .file ++ is) (files ++ args) := by
  induction files with
  | nil => exact ha
  | cons f files ih =>
    exact .more [.file f] _ [f] _ (.file f (.inl (h f List.mem_cons_self))) (ih fun g hg => h g (List.mem_cons_of_mem _ hg))

section
variable {F : Type} [FloatOps F] (W : World F)

/-- C68: what is not a command line ends the program before it does anything. -/
theorem run_rejects (fs : Files W.Loc) (args : List (List Char)) (h : ¬ ∃ is m, CommandLine is args ∧ Means is m) :
    cliRun W fs args = ([], some .badArguments) := by
  unfold cliRun
  cases hp : parseArgs args with
  | error e => rfl
  | ok m => obtain ⟨is, h1, h2⟩ := (command_line_read args m).mp hp; exact absurd ⟨is, m, h1, h2⟩ h

/-- C68: asking for help, giving no file or no suffix: the program ends normally and changes no file. -/
theorem run_without_work (fs : Files W.Loc) (args : List (List Char)) (is : List Item) (m : Matches) (h : CommandLine is args)
    (hm : Means is m) (hno : Item.help ∈ is ∨ fileNames is = [] ∨ suffixValues is = []) : cliRun W fs args = ([], none) := by
  unfold cliRun
  rw [(command_line_read args m).mpr ⟨is, h, hm⟩]
  show cliMain W fs (some m) = _
  unfold cliMain
  dsimp only
  split_ifs with h1 h2
  · rfl
  · rfl
  · rcases hno with h' | h' | h'
    · exact absurd (hm.help.mpr h') h1
    · exact absurd (hm.files.trans h') h2
    · have := hm.suffix
      rw [h'] at this
      cases hs : m.suffix with
      | none => rfl
      | some s => rw [hs] at this; cases this

/-- C68: otherwise the named files are watermarked, in the order in which they were named, with that suffix and, if it was given,
into that folder. -/
theorem run_processes (fs : Files W.Loc) (args : List (List Char)) (is : List Item) (h : CommandLine is args) (suffix : List Char)
    (hhelp : Item.help ∉ is) (hfiles : fileNames is ≠ []) (hsuf : suffixValues is = [suffix]) :
    (outputValues is = [] → cliRun W fs args = processInputs W suffix none fs (fileNames is)) ∧
    ∀ o f, outputValues is = [o] → W.blocked o = false → W.folder o = some f →
      cliRun W fs args = processInputs W suffix (some f) fs (fileNames is) := by
  have key : ∀ out : Option PathStr, out.toList = outputValues is →
      cliRun W fs args = process W fs (fileNames is) (some suffix) out := by
    intro out hout
    have hm : Means is ⟨false, some suffix, out, fileNames is⟩ :=
      ⟨rfl, hsuf.symm, hout, by simp [hhelp], by rw [List.count_eq_zero.mpr hhelp]; omega⟩
    unfold cliRun
    rw [(command_line_read args _).mpr ⟨is, h, hm⟩]
    exact main_processes W fs _ rfl hfiles
  refine ⟨fun ho => ?_, fun o f ho hb hf => ?_⟩
  · rw [key none (by rw [ho]; rfl), (process_with_suffix W fs _ suffix).1]
  · rw [key (some o) (by rw [ho]; rfl), (process_with_suffix W fs _ suffix).2 o f hb hf]

end

/-- The usual command line: files, and the options anywhere among them. -/
theorem usual_command_line (f1 f2 f3 : List (List Char)) (h1 : ∀ f ∈ f1 ++ f2 ++ f3, f.head? ≠ some '-') (suffix out : List Char) :
    parseArgs (f1 ++ ["-s".toList, suffix] ++ f2 ++ ["-o".toList, out] ++ f3) =
      .ok ⟨false, some suffix, some out, f1 ++ f2 ++ f3⟩ := by
  rw [command_line_read]
  have m1 : ∀ f ∈ f1, f.head? ≠ some '-' := fun f hf => h1 f (by simp [hf])
  have m2 : ∀ f ∈ f2, f.head? ≠ some '-' := fun f hf => h1 f (by simp [hf])
  have m3 : ∀ f ∈ f3, f.head? ≠ some '-' := fun f hf => h1 f (by simp [hf])
  have c3 := commandLine_files f3 m3 .done
  have c2 := commandLine_files f2 m2 (.more _ _ _ _ (.separate 0 'o' .output out .o) c3)
  have c1 := commandLine_files f1 m1 (.more _ _ _ _ (.separate 0 's' .suffix suffix .s) c2)
  have hf : ∀ (l l' : List Item), fileNames (l ++ l') = fileNames l ++ fileNames l' := fun l l' => List.filterMap_append
  have hs : ∀ (l l' : List Item), suffixValues (l ++ l') = suffixValues l ++ suffixValues l' := fun l l' => List.filterMap_append
  have ho : ∀ (l l' : List Item), outputValues (l ++ l') = outputValues l ++ outputValues l' := fun l l' => List.filterMap_append
  have hs0 : ∀ l : List (List Char), suffixValues (l.map .file) = [] := fun l => by simp [suffixValues, List.filterMap_map]
  have ho0 : ∀ l : List (List Char), outputValues (l.map .file) = [] := fun l => by simp [outputValues, List.filterMap_map]
  refine ⟨_, (by simpa using c1 : CommandLine (f1.map .file ++ (.suffix suffix :: (f2.map .file ++ (.output out :: f3.map .file))))
    _), ?_, ?_, ?_, ?_, ?_⟩
  · rw [← List.singleton_append (x := Item.suffix suffix), ← List.singleton_append (x := Item.output out)]; simp only [hf, fileNames_map]; simp [fileNames]
  · rw [← List.singleton_append (x := Item.suffix suffix), ← List.singleton_append (x := Item.output out)]; simp only [hs, hs0]; simp [suffixValues]
  · rw [← List.singleton_append (x := Item.suffix suffix), ← List.singleton_append (x := Item.output out)]; simp only [ho, ho0]; simp [outputValues]
  · simp
  · rw [List.count_eq_zero.mpr (by simp)]; omega

/-! Concrete command lines. -/

example : parseArgs ["in/a.png".toList, "-s".toList, "wm".toList, "-oout".toList, "b.png".toList] =
    .ok ⟨false, some "wm".toList, some "out".toList, ["in/a.png".toList, "b.png".toList]⟩ := by
  simp [parseArgs, parseLoop, isOptArg, optionWord, collectShorts, findShort, OptId.takesArg, applyNames, OptVals.push]

/-- A suffix that looks like an option is taken as the suffix. -/
example : parseArgs ["a.png".toList, "-s".toList, "-o".toList, "out".toList] =
    .ok ⟨false, some "-o".toList, none, ["a.png".toList, "out".toList]⟩ := by
  simp [parseArgs, parseLoop, isOptArg, optionWord, collectShorts, findShort, OptId.takesArg, applyNames, OptVals.push]

example : parseArgs ["a.png".toList, "-s".toList] = .error (.argumentMissing .suffix) := by
  simp [parseArgs, parseLoop, isOptArg, optionWord, collectShorts, findShort, OptId.takesArg, applyNames]

example : parseArgs ["-sa".toList, "--s=b".toList, "f.png".toList] = .error (.optionDuplicated .suffix) := by
  simp [parseArgs, parseLoop, isOptArg, optionWord, collectShorts, findShort, findName, OptId.takesArg, applyNames, OptVals.push]

example : parseArgs ["--suffix=wm".toList, "f.png".toList] = .error (.unrecognizedOption "suffix".toList) := by
  simp [parseArgs, parseLoop, isOptArg, optionWord, findName]

example : parseArgs ["-s".toList, "wm".toList, "--".toList, "-x.png".toList] =
    .ok ⟨false, some "wm".toList, none, ["-x.png".toList]⟩ := by
  simp [parseArgs, parseLoop, isOptArg, optionWord, collectShorts, findShort, OptId.takesArg, applyNames, OptVals.push]

end Sia
