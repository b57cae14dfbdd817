import Verif.Props.WebShown

/-! C60: which image the page shows, for every order in which loads and file readers end. -/
namespace Sia

section
variable {F : Type} [FloatOps F]

/-- The files chosen during a sequence of events, in order. -/
def chosenFiles (es : List ContentEvent) : List WebFile :=
  es.filterMap fun e => match e with
    | .choose f => some f
    | _ => none

/-- The image pair of a chosen file, if its bytes reach the library and it succeeds. -/
def fileProcess (W : WebWorld F) (f : WebFile) : Option WatermarkingProcess := contentProcess W (fileToBase64 f.mime f.bytes)

/-- What an event delivers: an arriving demo image its image pair, an ended reader that of the file with its number. -/
def delivered (W : WebWorld F) (files : List WebFile) : ContentEvent → Option WatermarkingProcess
  | .demo url => contentProcess W url
  | .ready k => files[k]?.bind (fileProcess W)
  | _ => none

theorem contentRun_append (W : WebWorld F) (s : ContentState) (es fs : List ContentEvent) :
    contentRun W s (es ++ fs) = (contentRun W s es).bind fun t => contentRun W t fs := by
  induction es generalizing s with
  | nil => rfl
  | cons e es ih =>
    simp only [List.cons_append, contentRun]
    cases contentStep W s e with
    | none => rfl
    | some t => simp [ih]

theorem contentRun_snoc (W : WebWorld F) (s : ContentState) (es : List ContentEvent) (e : ContentEvent) :
    contentRun W s (es ++ [e]) = (contentRun W s es).bind fun t => contentStep W t e := by
  rw [contentRun_append]
  congr 1
  funext t
  simp only [contentRun]
  cases contentStep W t e <;> rfl

theorem chosenFiles_snoc (es : List ContentEvent) (e : ContentEvent) :
    chosenFiles (es ++ [e]) = chosenFiles es ++ (match e with | .choose f => [f] | _ => []) := by
  unfold chosenFiles
  rw [List.filterMap_append]
  cases e <;> rfl

/-- Numbers used so far were given out so far. -/
theorem ready_lt (W : WebWorld F) (n : Nat) (es : List ContentEvent) (s : ContentState)
    (h : contentRun W (contentStart n) es = some s) :
    s.chosen = (chosenFiles es).length ∧ (∀ q ∈ s.pending, (chosenFiles es)[q.1]? = some q.2) ∧
      ∀ k, (.ready k ∈ es ∨ .unreadable k ∈ es) → k < s.chosen := by
  induction es using List.reverseRecOn generalizing s with
  | nil =>
    simp only [contentRun, Option.some_inj] at h
    subst h
    simp [contentStart, chosenFiles]
  | append_singleton es e ih =>
    rw [contentRun_snoc] at h
    cases ht : contentRun W (contentStart n) es with
    | none => rw [ht] at h; simp at h
    | some t =>
      rw [ht, Option.bind_some] at h
      obtain ⟨i1, i2, i3⟩ := ih t ht
      rw [chosenFiles_snoc]
      have find : ∀ k q, t.pending.find? (fun p => p.1 == k) = some q → k < t.chosen := by
        intro k q hq
        have h1 := List.find?_some hq
        have h2 := i2 q (List.mem_of_find?_eq_some hq)
        simp only [beq_iff_eq] at h1
        rw [h1] at h2
        rw [i1]
        exact (List.getElem?_eq_some_iff.1 h2).1
      cases e with
      | demo url =>
        unfold contentStep at h
        dsimp only at h
        split_ifs at h
        simp only [Option.some_inj] at h
        subst h
        simp only [List.append_nil]
        refine ⟨i1, i2, fun k hk => i3 k (by simpa using hk)⟩
      | choose f =>
        unfold contentStep at h
        dsimp only at h
        split_ifs at h
        simp only [Option.some_inj] at h
        subst h
        refine ⟨by simp [i1], ?_, fun k hk => Nat.lt_succ_of_lt (i3 k (by simpa using hk))⟩
        intro q hq
        rcases List.mem_append.1 hq with hq | hq
        · have := i2 q hq
          rw [List.getElem?_append_left (List.getElem?_eq_some_iff.1 this).1, this]
        · simp only [List.mem_singleton] at hq
          subst hq
          rw [List.getElem?_append_right (by omega), i1]
          simp
      | cancel =>
        unfold contentStep at h
        dsimp only at h
        split_ifs at h
        simp only [Option.some_inj] at h
        subst h
        simp only [List.append_nil]
        exact ⟨i1, i2, fun k hk => i3 k (by simpa using hk)⟩
      | ready k =>
        unfold contentStep at h
        dsimp only at h
        split at h
        · simp at h
        · rename_i q f hq
          simp only [Option.some_inj] at h
          subst h
          simp only [List.append_nil]
          refine ⟨i1, fun q hq => i2 q (List.mem_filter.1 hq).1, fun j hj => ?_⟩
          have : j = k ∨ (.ready j ∈ es ∨ .unreadable j ∈ es) := by
            simp only [List.mem_append, List.mem_singleton, ContentEvent.ready.injEq, reduceCtorEq, or_false] at hj
            tauto
          rcases this with rfl | hj
          · exact find _ _ hq
          · exact i3 j hj
      | unreadable k =>
        unfold contentStep at h
        dsimp only at h
        split at h
        · simp at h
        · rename_i q hq
          simp only [Option.some_inj] at h
          subst h
          simp only [List.append_nil]
          refine ⟨i1, fun q hq => i2 q (List.mem_filter.1 hq).1, fun j hj => ?_⟩
          have : j = k ∨ (.ready j ∈ es ∨ .unreadable j ∈ es) := by
            simp only [List.mem_append, List.mem_singleton, ContentEvent.unreadable.injEq, reduceCtorEq, or_false] at hj
            tauto
          rcases this with rfl | hj
          · exact find _ _ hq
          · exact i3 j hj

theorem delivered_congr (W : WebWorld F) (files more : List WebFile) (es : List ContentEvent)
    (h : ∀ k, .ready k ∈ es → k < files.length) :
    es.filterMap (delivered W (files ++ more)) = es.filterMap (delivered W files) := by
  refine List.filterMap_congr fun e he => ?_
  cases e with
  | ready k => simp only [delivered]; rw [List.getElem?_append_left (h k he)]
  | _ => rfl

theorem showResult_getLast (W : WebWorld F) (files : List WebFile) (es : List ContentEvent) (e : ContentEvent) :
    ((es ++ [e]).filterMap (delivered W files)).getLast? =
      showResult (es.filterMap (delivered W files)).getLast? (delivered W files e) := by
  rw [List.filterMap_append]
  cases hd : delivered W files e with
  | none => simp [hd, showResult]
  | some p => simp [hd, showResult]

/-- C60: whatever the order of events, the page shows the image pair that was delivered last; choosing a file, closing the
dialog, unreadable files, and files or demo images the library fails on change nothing. Both canvases always belong to
the same file. -/
theorem shown_last_delivered (W : WebWorld F) (n : Nat) (es : List ContentEvent) (s : ContentState)
    (h : contentRun W (contentStart n) es = some s) :
    s.shown = (es.filterMap (delivered W (chosenFiles es))).getLast? := by
  induction es using List.reverseRecOn generalizing s with
  | nil =>
    simp only [contentRun, Option.some_inj] at h
    subst h
    rfl
  | append_singleton es e ih =>
    rw [contentRun_snoc] at h
    cases ht : contentRun W (contentStart n) es with
    | none => rw [ht] at h; simp at h
    | some t =>
      rw [ht, Option.bind_some] at h
      obtain ⟨i1, i2, i3⟩ := ready_lt W n es t ht
      have ih := ih t ht
      rw [showResult_getLast, chosenFiles_snoc,
        delivered_congr W (chosenFiles es) _ es (fun k hk => i1 ▸ i3 k (.inl hk)), ← ih]
      cases e with
      | demo url =>
        unfold contentStep at h
        dsimp only at h
        split_ifs at h
        simp only [Option.some_inj] at h
        subst h
        rfl
      | choose f =>
        unfold contentStep at h
        dsimp only at h
        split_ifs at h
        simp only [Option.some_inj] at h
        subst h
        rfl
      | cancel =>
        unfold contentStep at h
        dsimp only at h
        split_ifs at h
        simp only [Option.some_inj] at h
        subst h
        rfl
      | ready k =>
        unfold contentStep at h
        dsimp only at h
        split at h
        · simp at h
        · rename_i q f hq
          simp only [Option.some_inj] at h
          subst h
          have h1 := List.find?_some hq
          have h2 := i2 _ (List.mem_of_find?_eq_some hq)
          simp only [beq_iff_eq] at h1
          simp only [delivered, List.append_nil]
          rw [← h1, h2]
          rfl
      | unreadable k =>
        unfold contentStep at h
        dsimp only at h
        split at h
        · simp at h
        · simp only [Option.some_inj] at h
          subst h
          rfl

/-- C60: nothing but the demo image and chosen files is ever shown, and never parts of two of them. -/
theorem shown_origin (W : WebWorld F) (n : Nat) (es : List ContentEvent) (s : ContentState) (p : WatermarkingProcess)
    (h : contentRun W (contentStart n) es = some s) (hp : s.shown = some p) :
    (∃ url, .demo url ∈ es ∧ contentProcess W url = some p) ∨ ∃ f, .choose f ∈ es ∧ fileProcess W f = some p := by
  rw [shown_last_delivered W n es s h] at hp
  obtain ⟨e, he, hd⟩ := List.mem_filterMap.1 (List.mem_of_getLast? hp)
  cases e with
  | demo url => exact .inl ⟨url, he, hd⟩
  | ready k =>
    right
    simp only [delivered] at hd
    cases hk : (chosenFiles es)[k]? with
    | none => rw [hk] at hd; simp at hd
    | some f =>
      rw [hk] at hd
      refine ⟨f, ?_, hd⟩
      have := List.mem_of_getElem? hk
      obtain ⟨e, he, hf⟩ := List.mem_filterMap.1 this
      cases e <;> simp at hf
      subst hf
      exact he
  | choose f => simp [delivered] at hd
  | cancel => simp [delivered] at hd
  | unreadable k => simp [delivered] at hd

/-- The numbers of the readers that have ended, in the order in which they ended. -/
def endedReaders (es : List ContentEvent) : List Nat :=
  es.filterMap fun e => match e with
    | .ready k => some k
    | .unreadable k => some k
    | _ => none

/-- Every chosen file is still being read or its reader has ended. -/
theorem ended_or_pending (W : WebWorld F) (n : Nat) (es : List ContentEvent) (s : ContentState)
    (h : contentRun W (contentStart n) es = some s) (k : Nat) (hk : k < s.chosen) :
    k ∈ endedReaders es ∨ k ∈ s.pending.map Prod.fst := by
  induction es using List.reverseRecOn generalizing s with
  | nil =>
    simp only [contentRun, Option.some_inj] at h
    subst h
    simp [contentStart] at hk
  | append_singleton es e ih =>
    rw [contentRun_snoc] at h
    cases ht : contentRun W (contentStart n) es with
    | none => rw [ht] at h; simp at h
    | some t =>
      rw [ht, Option.bind_some] at h
      have ih := ih t ht
      have happ : k ∈ endedReaders es → k ∈ endedReaders (es ++ [e]) := by
        intro hx
        unfold endedReaders at *
        rw [List.filterMap_append]
        exact List.mem_append_left _ hx
      have hfilter : ∀ j, k ≠ j → k ∈ t.pending.map Prod.fst →
          k ∈ (t.pending.filter fun p => p.1 != j).map Prod.fst := by
        intro j hj hm
        obtain ⟨q, hq, rfl⟩ := List.mem_map.1 hm
        exact List.mem_map.2 ⟨q, List.mem_filter.2 ⟨hq, by simpa using hj⟩, rfl⟩
      cases e with
      | demo url =>
        unfold contentStep at h
        dsimp only at h
        split_ifs at h
        simp only [Option.some_inj] at h
        subst h
        exact (ih hk).imp happ id
      | choose f =>
        unfold contentStep at h
        dsimp only at h
        split_ifs at h
        simp only [Option.some_inj] at h
        subst h
        by_cases hc : k < t.chosen
        · refine (ih hc).imp happ fun hm => ?_
          rw [List.map_append]
          exact List.mem_append_left _ hm
        · right
          simp only at hk
          simp; right; omega
      | cancel =>
        unfold contentStep at h
        dsimp only at h
        split_ifs at h
        simp only [Option.some_inj] at h
        subst h
        exact (ih hk).imp happ id
      | ready j =>
        unfold contentStep at h
        dsimp only at h
        split at h
        · simp at h
        · simp only [Option.some_inj] at h
          subst h
          by_cases hj : k = j
          · left; unfold endedReaders; rw [List.filterMap_append]; simp [hj]
          · exact (ih hk).imp happ (hfilter j hj)
      | unreadable j =>
        unfold contentStep at h
        dsimp only at h
        split at h
        · simp at h
        · simp only [Option.some_inj] at h
          subst h
          by_cases hj : k = j
          · left; unfold endedReaders; rw [List.filterMap_append]; simp [hj]
          · exact (ih hk).imp happ (hfilter j hj)

theorem contentStep_demos (W : WebWorld F) (s t : ContentState) (e : ContentEvent) (h : contentStep W s e = some t) :
    t.demos = s.demos ∨ ((∃ url, e = .demo url) ∧ s.demos = t.demos + 1) := by
  cases e <;> unfold contentStep at h <;> dsimp only at h
  · split_ifs at h
    simp only [Option.some_inj] at h
    subst h
    right
    exact ⟨⟨_, rfl⟩, by simp; omega⟩
  · split_ifs at h
    simp only [Option.some_inj] at h
    subst h
    exact .inl rfl
  · split_ifs at h
    simp only [Option.some_inj] at h
    subst h
    exact .inl rfl
  · split at h
    · simp at h
    · simp only [Option.some_inj] at h
      subst h
      exact .inl rfl
  · split at h
    · simp at h
    · simp only [Option.some_inj] at h
      subst h
      exact .inl rfl

/-- As long as the demo image of a production build has not arrived, nothing has happened. -/
theorem waiting_for_demo (W : WebWorld F) (es : List ContentEvent) (s : ContentState)
    (h : contentRun W (contentStart 1) es = some s) : s.demos = 0 ∨ (s = contentStart 1 ∧ es = []) := by
  induction es using List.reverseRecOn generalizing s with
  | nil =>
    simp only [contentRun, Option.some_inj] at h
    exact .inr ⟨h.symm, rfl⟩
  | append_singleton es e ih =>
    rw [contentRun_snoc] at h
    cases ht : contentRun W (contentStart 1) es with
    | none => rw [ht] at h; simp at h
    | some t =>
      rw [ht, Option.bind_some] at h
      left
      rcases ih t ht with h0 | ⟨rfl, -⟩
      · rcases contentStep_demos W t s e h with h1 | ⟨-, h1⟩ <;> omega
      · rcases contentStep_demos W _ s e h with h1 | ⟨-, h1⟩
        · cases e <;> simp [contentStep, contentStart, showResult] at h
          subst h
          rfl
        · simp only [contentStart] at h1; omega

theorem no_demo_left (W : WebWorld F) (es : List ContentEvent) (s t : ContentState) (hs : s.demos = 0)
    (h : contentRun W s es = some t) (url : List Char) : .demo url ∉ es := by
  induction es generalizing s with
  | nil => simp
  | cons e es ih =>
    simp only [contentRun] at h
    cases hq : contentStep W s e with
    | none => rw [hq] at h; simp at h
    | some q =>
      rw [hq, Option.bind_some] at h
      have hd := contentStep_demos W s q e hq
      simp only [List.mem_cons, not_or]
      refine ⟨?_, ih q ?_ h⟩
      · rintro rfl
        simp [contentStep, hs] at hq
      · rcases hd with hd | ⟨-, hd⟩ <;> omega

/-- C60 (production build): if the readers end in the order in which their files were chosen, and all have ended, the page shows
the last chosen file, provided it could be read and marked. -/
theorem last_choice_shown (W : WebWorld F) (es : List ContentEvent) (s : ContentState) (f : WebFile) (p : WatermarkingProcess)
    (h : contentRun W (contentStart 1) es = some s) (hend : s.pending = []) (hord : (endedReaders es).Pairwise (· < ·))
    (hf : (chosenFiles es).getLast? = some f) (hread : .unreadable ((chosenFiles es).length - 1) ∉ es)
    (hp : fileProcess W f = some p) : s.shown = some p := by
  obtain ⟨i1, -, i3⟩ := ready_lt W 1 es s h
  have hpos : 0 < (chosenFiles es).length := by
    cases hc : chosenFiles es with
    | nil => rw [hc] at hf; simp at hf
    | cons => simp
  have hmem : (chosenFiles es).length - 1 ∈ endedReaders es := by
    rcases ended_or_pending W 1 es s h ((chosenFiles es).length - 1) (by omega) with hm | hm
    · exact hm
    · rw [hend] at hm; simp at hm
  have hready : .ready ((chosenFiles es).length - 1) ∈ es := by
    obtain ⟨e, he, hk⟩ := List.mem_filterMap.1 hmem
    cases e <;> simp only [Option.some_inj, reduceCtorEq] at hk
    · rw [← hk]; exact he
    · rw [← hk] at hread; exact absurd he hread
  rw [shown_last_delivered W 1 es s h]
  obtain ⟨pre, post, e⟩ := List.append_of_mem hready
  generalize hk : (chosenFiles es).length - 1 = k at *
  have hkf : (chosenFiles es)[k]? = some f := by
    rw [← hf, List.getLast?_eq_getElem?, hk]
  generalize hfs : chosenFiles es = fs at *
  have hpost : ∀ x ∈ post, delivered W fs x = none := by
    intro x hx
    have hended : endedReaders post = [] := by
      rw [e] at hord
      have e2 : endedReaders (pre ++ .ready k :: post) = endedReaders pre ++ k :: endedReaders post := by
        unfold endedReaders
        rw [List.filterMap_append, List.filterMap_cons_some]
        rfl
      rw [e2] at hord
      have h3 := (List.pairwise_append.1 hord).2.1
      by_contra hne
      obtain ⟨j, hj⟩ := List.exists_mem_of_ne_nil _ hne
      have hkj : k < j := (List.pairwise_cons.1 h3).1 j hj
      have : j < s.chosen := by
        apply i3
        obtain ⟨y, hy, hyj⟩ := List.mem_filterMap.1 hj
        cases y <;> simp only [Option.some_inj, reduceCtorEq] at hyj
        · left; rw [e, ← hyj]; simp [hy]
        · right; rw [e, ← hyj]; simp [hy]
      omega
    cases x with
    | demo url =>
      exfalso
      rw [e, contentRun_append] at h
      cases ht : contentRun W (contentStart 1) pre with
      | none => rw [ht] at h; simp at h
      | some t =>
        rw [ht, Option.bind_some] at h
        rcases waiting_for_demo W pre t ht with h0 | ⟨rfl, -⟩
        · exact no_demo_left W _ t s h0 h url (by simp [hx])
        · simp [contentRun, contentStep, contentStart] at h
    | ready j =>
      exfalso
      have : j ∈ endedReaders post := List.mem_filterMap.2 ⟨_, hx, rfl⟩
      rw [hended] at this
      simp at this
    | choose f => rfl
    | cancel => rfl
    | unreadable j => rfl
  rw [e, List.filterMap_append]
  have hd : delivered W fs (.ready k) = some p := by
    simp only [delivered, hkf, Option.bind_some, hp]
  have : (ContentEvent.ready k :: post).filterMap (delivered W fs) = [p] := by
    rw [List.filterMap_cons_some hd, List.filterMap_eq_nil_iff.2 hpost]
  rw [this]
  simp

/-- C60: an earlier file whose reader ends later replaces the file chosen after it: with any two loadable files `A` and `B`,
chosen in this order, the page ends up showing `A`. -/
theorem stale_choice_shown (W : WebWorld F) (n : Nat) (url : List Char) (A B : WebFile) (d a b : WatermarkingProcess)
    (hd : contentProcess W url = some d) (ha : fileProcess W A = some a) (hb : fileProcess W B = some b) :
    ∃ s, contentRun W (contentStart (n + 1)) [.demo url, .choose A, .choose B, .ready 1, .ready 0] = some s ∧
      s.shown = some a ∧ s.pending = [] := by
  unfold fileProcess at ha hb
  simp [contentRun, contentStep, contentStart, hd, ha, hb, showResult]

/-- C60 (development build): the second load of the demo image replaces a file chosen in between. -/
theorem demo_replaces_choice (W : WebWorld F) (n : Nat) (url : List Char) (A : WebFile) (d a : WatermarkingProcess)
    (hd : contentProcess W url = some d) (ha : fileProcess W A = some a) :
    ∃ s, contentRun W (contentStart (n + 2)) [.demo url, .choose A, .ready 0, .demo url] = some s ∧ s.shown = some d := by
  unfold fileProcess at ha
  simp [contentRun, contentStep, contentStart, hd, ha, showResult]

/-- C60: if no load of the demo image delivers anything, no file can ever be chosen and nothing is ever shown. -/
theorem no_demo_no_choice (W : WebWorld F) (n : Nat) (es : List ContentEvent) (s : ContentState)
    (h : contentRun W (contentStart n) es = some s) (hd : ∀ url, .demo url ∈ es → contentProcess W url = none) :
    chosenFiles es = [] ∧ s.shown = none := by
  have hshow : chosenFiles es = [] → s.shown = none := by
    intro hc
    rw [shown_last_delivered W n es s h, hc, List.filterMap_eq_nil_iff.2]
    · rfl
    · intro e he
      cases e with
      | demo url => exact hd url he
      | ready k => rfl
      | _ => rfl
  suffices hc : chosenFiles es = [] from ⟨hc, hshow hc⟩
  clear hshow
  induction es using List.reverseRecOn generalizing s with
  | nil => rfl
  | append_singleton es e ih =>
    rw [contentRun_snoc] at h
    cases ht : contentRun W (contentStart n) es with
    | none => rw [ht] at h; simp at h
    | some t =>
      rw [ht, Option.bind_some] at h
      have hd' : ∀ url, .demo url ∈ es → contentProcess W url = none := fun url hu => hd url (by simp [hu])
      have ih := ih t ht hd'
      rw [chosenFiles_snoc, ih]
      cases e with
      | choose f =>
        exfalso
        have hsh : t.shown = none := by
          rw [shown_last_delivered W n es t ht, ih, List.filterMap_eq_nil_iff.2]
          · rfl
          · intro e he
            cases e with
            | demo url => exact hd' url he
            | ready k => rfl
            | _ => rfl
        simp [contentStep, hsh] at h
      | _ => rfl

end
end Sia
