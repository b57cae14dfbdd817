import Verif.Props.ConcurrentProps
import Verif.Spec.SharedOutputsSpec

/-! C100: several processes of the tool that write the same files. -/
namespace Sia

theorem prefix_get {a b : List UInt8} (h : a <+: b) (k : Nat) (hk : k < a.length) : b[k]? = a[k]? := by
  obtain ⟨t, rfl⟩ := h
  exact List.getElem?_append_left hk

/-- A write leaves the bytes elsewhere as they were and fills a gap with zeros. -/
theorem patch_get (old bytes : List UInt8) (offset k : Nat) (hb : bytes ≠ []) :
    (patch old offset bytes)[k]? =
      if k < offset then (if k < old.length then old[k]? else some 0)
      else if k < offset + bytes.length then bytes[k - offset]? else old[k]? := by
  unfold patch
  rw [if_neg hb]
  have hl1 : (old.take offset ++ List.replicate (offset - old.length) 0).length = offset := by
    rw [List.length_append, List.length_take, List.length_replicate]
    omega
  rw [List.append_assoc]
  by_cases h1 : k < offset
  · rw [if_pos h1, List.getElem?_append_left (by omega)]
    by_cases h2 : k < old.length
    · rw [if_pos h2, List.getElem?_append_left (by rw [List.length_take]; omega), List.getElem?_take, if_pos h1]
    · rw [if_neg h2, List.getElem?_append_right (by rw [List.length_take]; omega), List.length_take, List.getElem?_replicate]
      rw [if_pos (by omega)]
  · rw [if_neg h1, List.getElem?_append_right (by omega), hl1]
    by_cases h2 : k < offset + bytes.length
    · rw [if_pos h2, List.getElem?_append_left (by omega)]
    · rw [if_neg h2, List.getElem?_append_right (by omega), List.getElem?_drop]
      congr 1
      omega

theorem patch_length (old bytes : List UInt8) (offset : Nat) (hb : bytes ≠ []) :
    (patch old offset bytes).length = max old.length (offset + bytes.length) := by
  unfold patch
  rw [if_neg hb]
  simp only [List.length_append, List.length_take, List.length_replicate, List.length_drop]
  omega

theorem patch_nil (old : List UInt8) (offset : Nat) : patch old offset [] = old := if_pos rfl

/-- Writing the next bytes of `final` at their place keeps a content on its way. -/
theorem patch_partly (final old before c : List UInt8) (h : PartlyWritten final old) (h1 : before <+: c) (h2 : c <+: final) :
    PartlyWritten final (patch old before.length (c.drop before.length)) := by
  by_cases hb : c.drop before.length = []
  · rw [hb, patch_nil]
    exact h
  have hlen := h2.length_le
  have hlen1 := h1.length_le
  refine ⟨?_, fun k b hk => ?_⟩
  · rw [patch_length _ _ _ hb, List.length_drop]
    have := h.1
    omega
  · rw [patch_get _ _ _ _ hb] at hk
    split_ifs at hk with g1 g2 g3
    · exact h.2 k b hk
    · exact .inl (Option.some.inj hk).symm
    · right
      rw [List.getElem?_drop, Nat.add_sub_cancel' (by omega)] at hk
      rw [prefix_get h2 k (by rw [List.length_drop] at g3; omega)]
      exact hk
    · exact h.2 k b hk

/-- Writing bytes of `final` in their place does not spoil a beginning that is right. -/
theorem patch_right (final old before c : List UInt8) (o : Nat) (ho : o ≤ old.length) (h : old.take o = final.take o) (h1 : before <+: c)
    (h2 : c <+: final) : (patch old before.length (c.drop before.length)).take o = final.take o ∧
      o ≤ (patch old before.length (c.drop before.length)).length := by
  by_cases hb : c.drop before.length = []
  · rw [hb, patch_nil]
    exact ⟨h, ho⟩
  refine ⟨?_, by rw [patch_length _ _ _ hb]; omega⟩
  refine List.ext_getElem? fun k => ?_
  have hk := congrArg (fun l => l[k]?) h
  rw [List.getElem?_take, List.getElem?_take] at hk ⊢
  by_cases hko : k < o
  · rw [if_pos hko] at hk ⊢
    rw [if_pos hko] at hk ⊢
    rw [patch_get _ _ _ _ hb]
    split_ifs with g1 g2 g3
    · exact hk
    · omega
    · rw [List.getElem?_drop, Nat.add_sub_cancel' (by omega)]
      rw [List.length_drop] at g3
      have hkc : k < c.length := by omega
      rw [prefix_get h2 k hkc]
    · exact hk
  · rw [if_neg hko, if_neg hko]

/-- Writing on from a beginning that is right. -/
theorem patch_forward (final old before c : List UInt8) (ho : before.length ≤ old.length) (h : old.take before.length = before)
    (h1 : before <+: c) (h2 : c <+: final) : (patch old before.length (c.drop before.length)).take c.length = c ∧
      c.length ≤ (patch old before.length (c.drop before.length)).length := by
  have hlen1 := h1.length_le
  by_cases hb : c.drop before.length = []
  · have : c.length ≤ before.length := List.drop_eq_nil_iff.mp hb
    have e : before = c := h1.eq_of_length (by omega)
    subst e
    rw [hb, patch_nil]
    exact ⟨h, ho⟩
  refine ⟨?_, by rw [patch_length _ _ _ hb, List.length_drop]; omega⟩
  refine List.ext_getElem? fun k => ?_
  rw [List.getElem?_take]
  by_cases hkc : k < c.length
  · rw [if_pos hkc, patch_get _ _ _ _ hb]
    have hk := congrArg (fun l => l[k]?) h
    rw [List.getElem?_take] at hk
    split_ifs with g1 g2 g3
    · rw [if_pos g1] at hk
      rw [hk]
      rw [prefix_get h1 k g1]
    · omega
    · rw [List.getElem?_drop, Nat.add_sub_cancel' (by omega)]
    · rw [List.length_drop] at g3
      omega
  · rw [if_neg hkc, List.getElem?_eq_none (by omega)]

/-- Contents growing to a last one, which is `final` (if nothing is written any more, what is there is `final`). -/
def GrowsTo (final : List UInt8) : List UInt8 → List (List UInt8) → Prop
  | before, [] => before = final
  | before, c :: cs => before <+: c ∧ GrowsTo final c cs

theorem GrowsTo.prefix {final : List UInt8} : ∀ {cs : List (List UInt8)} {before : List UInt8}, GrowsTo final before cs → before <+: final
  | [], _, h => by rw [show _ = final from h]
  | _ :: _, _, h => h.1.trans (GrowsTo.prefix h.2)

theorem growsTo_of_growing {final : List UInt8} : ∀ {contents : List (List UInt8)} {before : List UInt8},
    Growing before (contents ++ [final]) → GrowsTo final before (contents ++ [final])
  | [], _, h => ⟨h.1, rfl⟩
  | _ :: _, _, h => ⟨h.1, growsTo_of_growing h.2⟩

section
variable {F : Type} [FloatOps F] (W : World F)

omit [FloatOps F] in
theorem step_at (fs : Files W.Loc) (l : W.Loc) (b : List UInt8) : W.step fs (l, b) l = some b := by
  unfold World.step
  exact if_pos rfl

omit [FloatOps F] in
theorem step_away (fs : Files W.Loc) (l l' : W.Loc) (b : List UInt8) (h : l' ≠ l) : W.step fs (l, b) l' = fs l' := by
  unfold World.step
  exact if_neg h

theorem writer_step_call (fs : Files W.Loc) (r : Writer W) (e : FileCall W) (es : List (FileCall W)) (h : r.calls = e :: es) :
    Writer.step W fs r = (W.call fs e, ⟨r.suffix, r.folder, r.todo, es, r.stop⟩) := by
  unfold Writer.step
  rw [h]

/-- The calls for an input that can be marked. -/
theorem processInput_calls (hA : W.Appends) (fs : Files W.Loc) (suffix : List Char) (folder : Option PathStr) (input : PathStr)
    (content : List UInt8) (loc : W.Loc) (final : List UInt8) (hc : fs (W.resolve input) = some content)
    (h : MarksTo W suffix folder input content loc final) :
    (∃ cs, callsOf (processInput W fs suffix folder input).1 = .create loc :: writeCalls loc [] cs ∧ GrowsTo final [] cs) ∧
      (processInput W fs suffix folder input).2 = none := by
  obtain ⟨image, marked, stem, ext, format, contents, h1, h2, h3, h4, h5, h6, h7⟩ := h
  rw [namedAs_iff] at h3
  rw [← outputPath_eq] at h4 h6
  subst h4
  have e : processInput W fs suffix folder input = ((W.resolve (outputPath stem ext suffix folder), []) ::
      (contents ++ [final]).map fun c => (W.resolve (outputPath stem ext suffix folder), c), none) := by
    unfold processInput
    simp only [hc, h1, h2, h3, h5, h6, h7, if_true]
  rw [e]
  refine ⟨⟨contents ++ [final], ?_, growsTo_of_growing ?_⟩, rfl⟩
  · show FileCall.create _ :: writeCalls _ [] (((contents ++ [final]).map _).map Prod.snd) = _
    rw [List.map_map]
    congr 2
    exact List.map_id _
  · have := hA format marked
    rw [h7] at this
    exact this

variable {ι : Type} [DecidableEq ι] (c : ι → Command) (fs : Files W.Loc) (E : W.Loc → List UInt8)

/-- The file has been created by a process, its beginning is right, and the process that created it last still writes the rest. -/
def Opened (m : Writers W ι) (l : W.Loc) : Prop :=
  ∃ content, m.files l = some content ∧ PartlyWritten (E l) content ∧ ∃ before, before <+: E l ∧ before.length ≤ content.length ∧
    content.take before.length = before ∧ (before = E l ∨ ∃ j, l ∈ (c j).writes W ∧ ∃ d ds, (m.run j).calls = writeCalls l before (d :: ds) ∧
      GrowsTo (E l) before (d :: ds))

/-- What a process is about to do. -/
def Doing (m : Writers W ι) (i : ι) : Prop :=
  (m.run i).calls = [] ∨ ∃ l ∈ (c i).writes W,
    (∃ cs, (m.run i).calls = .create l :: writeCalls l [] cs ∧ GrowsTo (E l) [] cs) ∨
    ∃ before d ds, (m.run i).calls = writeCalls l before (d :: ds) ∧ GrowsTo (E l) before (d :: ds) ∧ Opened W c E m l

/-- A process and its inputs. -/
structure ProcOk (m : Writers W ι) (i : ι) : Prop where
  suffix : (m.run i).suffix = (c i).suffix
  folder : (m.run i).folder = (c i).folder
  stop : (m.run i).stop = none
  todo : ∀ x ∈ (m.run i).todo, x ∈ (c i).inputs
  doing : Doing W c E m i
  did : ∀ x ∈ (c i).inputs, x ∈ (m.run i).todo ∨ ∀ stem ext, NamedAs x stem ext →
    Opened W c E m (W.resolve (OutName stem ext (c i).suffix (c i).folder)) ∨
      ∃ cs, (m.run i).calls = .create (W.resolve (OutName stem ext (c i).suffix (c i).folder)) :: cs

/-- What holds at every moment. -/
structure AllOk (m : Writers W ι) : Prop where
  proc : ∀ i, ProcOk W c E m i
  frame : ∀ l, m.files l = fs l ∨ Opened W c E m l
  away : ∀ l, (∀ i, l ∉ (c i).writes W) → m.files l = fs l

variable {W c fs E}

/-- A process that makes no call leaves what is open as it is. -/
theorem Opened.idle {m : Writers W ι} {i : ι} {l : W.Loc} (h : Opened W c E m l) (hi : (m.run i).calls = []) (r : Writer W) :
    Opened W c E ⟨m.files, fun j => if j = i then r else m.run j⟩ l := by
  obtain ⟨content, h1, h2, before, h3, h4, h5, h6⟩ := h
  refine ⟨content, h1, h2, before, h3, h4, h5, h6.imp_right ?_⟩
  rintro ⟨j, hj, d, ds, h7, h8⟩
  refine ⟨j, hj, d, ds, ?_, h8⟩
  have hji : j ≠ i := by
    rintro rfl
    rw [hi] at h7
    cases h7
  show (if j = i then r else m.run j).calls = _
  rw [if_neg hji]
  exact h7

/-- After the creation of a file. -/
theorem opened_create {m : Writers W ι} {i : ι} {l0 : W.Loc} {cs : List (List UInt8)} (hw : l0 ∈ (c i).writes W)
    (hi : (m.run i).calls = .create l0 :: writeCalls l0 [] cs) (hg : GrowsTo (E l0) [] cs) :
    Opened W c E (m.step i) l0 ∧ ∀ l, Opened W c E m l → Opened W c E (m.step i) l := by
  have hs := writer_step_call W m.files (m.run i) _ _ hi
  have hfiles : (m.step i).files = W.step m.files (l0, []) := congrArg Prod.fst hs
  have hrun : (m.step i).run i = ⟨(m.run i).suffix, (m.run i).folder, (m.run i).todo, writeCalls l0 [] cs, (m.run i).stop⟩ := by
    show (if i = i then (Writer.step W m.files (m.run i)).2 else m.run i) = _
    rw [if_pos rfl, hs]
  have hother : ∀ j, j ≠ i → (m.step i).run j = m.run j := fun j hj => if_neg hj
  have h0 : Opened W c E (m.step i) l0 := by
    refine ⟨[], by rw [hfiles, step_at], ⟨Nat.zero_le _, fun k b hk => by simp at hk⟩, [], List.nil_prefix, le_rfl, rfl, ?_⟩
    cases cs with
    | nil => exact .inl hg
    | cons d ds => exact .inr ⟨i, hw, d, ds, by rw [hrun], hg⟩
  refine ⟨h0, fun l hl => ?_⟩
  by_cases hll : l = l0
  · rw [hll]
    exact h0
  · obtain ⟨content, h1, h2, before, h3, h4, h5, h6⟩ := hl
    refine ⟨content, by rw [hfiles, step_away _ _ _ _ _ hll]; exact h1, h2, before, h3, h4, h5, h6.imp_right ?_⟩
    rintro ⟨j, hj, d, ds, h7, h8⟩
    refine ⟨j, hj, d, ds, ?_, h8⟩
    have hji : j ≠ i := by
      rintro rfl
      rw [hi] at h7
      cases h7
    rw [hother j hji]
    exact h7

/-- After a write. -/
theorem opened_write {m : Writers W ι} {i : ι} {l0 : W.Loc} {before0 d0 : List UInt8} {ds0 : List (List UInt8)}
    (hi : (m.run i).calls = writeCalls l0 before0 (d0 :: ds0)) (hg : GrowsTo (E l0) before0 (d0 :: ds0)) :
    ∀ l, Opened W c E m l → Opened W c E (m.step i) l := by
  have hs := writer_step_call W m.files (m.run i) _ _ hi
  have hfiles : (m.step i).files = W.step m.files (l0, patch ((m.files l0).getD []) before0.length (d0.drop before0.length)) :=
    congrArg Prod.fst hs
  have hrun : (m.step i).run i = ⟨(m.run i).suffix, (m.run i).folder, (m.run i).todo, writeCalls l0 d0 ds0, (m.run i).stop⟩ := by
    show (if i = i then (Writer.step W m.files (m.run i)).2 else m.run i) = _
    rw [if_pos rfl, hs]
  have hother : ∀ j, j ≠ i → (m.step i).run j = m.run j := fun j hj => if_neg hj
  intro l hl
  obtain ⟨content, h1, h2, before, h3, h4, h5, h6⟩ := hl
  by_cases hll : l = l0
  · subst hll
    have hf : (m.step i).files l = some (patch content before0.length (d0.drop before0.length)) := by
      rw [hfiles, step_at, h1]
      rfl
    have hp := patch_partly (E l) content before0 d0 h2 hg.1 hg.2.prefix
    have hkeep : (patch content before0.length (d0.drop before0.length)).take before.length = before ∧
        before.length ≤ (patch content before0.length (d0.drop before0.length)).length := by
      have he : (E l).take before.length = before := (List.prefix_iff_eq_take.mp h3).symm
      have := patch_right (E l) content before0 d0 before.length h4 (h5.trans he.symm) hg.1 hg.2.prefix
      rw [he] at this
      exact this
    rcases h6 with h6 | ⟨j, hj, d, ds, h7, h8⟩
    · exact ⟨_, hf, hp, before, h3, hkeep.2, hkeep.1, .inl h6⟩
    · by_cases hji : j = i
      · subst hji
        have heq : writeCalls (W := W) l before0 (d0 :: ds0) = writeCalls l before (d :: ds) := hi.symm.trans h7
        have hh : FileCall.write (W := W) l before0.length (d0.drop before0.length) = .write l before.length (d.drop before.length) :=
          (List.cons.inj heq).1
        have ht : writeCalls (W := W) l d0 ds0 = writeCalls l d ds := (List.cons.inj heq).2
        injection hh with _ e1 e2
        rw [e2, e1] at hf hp
        obtain ⟨f1, f2⟩ := patch_forward (E l) content before d h4 h5 h8.1 h8.2.prefix
        refine ⟨_, hf, hp, d, h8.2.prefix, f2, f1, ?_⟩
        cases ds with
        | nil => exact .inl h8.2
        | cons d' ds' => exact .inr ⟨j, hj, d', ds', by rw [hrun]; exact ht, h8.2⟩
      · exact ⟨_, hf, hp, before, h3, hkeep.2, hkeep.1, .inr ⟨j, hj, d, ds, by rw [hother j hji]; exact h7, h8⟩⟩
  · refine ⟨content, by rw [hfiles, step_away _ _ _ _ _ hll]; exact h1, h2, before, h3, h4, h5, h6.imp_right ?_⟩
    rintro ⟨j, hj, d, ds, h7, h8⟩
    refine ⟨j, hj, d, ds, ?_, h8⟩
    have hji : j ≠ i := by
      rintro rfl
      rw [hi] at h7
      have := (List.cons.inj h7).1
      injection this with e1 _ _
      exact hll e1.symm
    rw [hother j hji]
    exact h7

theorem allOk_step (hA : W.Appends) (hN : NoOutputRead W c) (hS : SameBytes W c fs E) {m : Writers W ι} (h : AllOk W c fs E m) (i : ι) :
    AllOk W c fs E (m.step i) := by
  obtain ⟨hproc, hframe, haway⟩ := h
  have hother : ∀ j, j ≠ i → (m.step i).run j = m.run j := fun j hj => if_neg hj
  have hi := hproc i
  -- the effect on what is open, and on the process itself
  have key : (∀ l, Opened W c E m l → Opened W c E (m.step i) l) ∧ ProcOk W c E (m.step i) i ∧
      (∀ l, (m.step i).files l = m.files l ∨ Opened W c E (m.step i) l) ∧
      ∀ l, (∀ i, l ∉ (c i).writes W) → (m.step i).files l = m.files l := by
    rcases hi.doing with hd | ⟨l0, hw, ⟨cs, hd, hg⟩ | ⟨before, d, ds, hd, hg, ho⟩⟩
    · -- no call: the next input is read, or nothing happens
      cases htodo : (m.run i).todo with
      | nil =>
        have hs : Writer.step W m.files (m.run i) = (m.files, m.run i) := by
          unfold Writer.step
          rw [hd, hi.stop, htodo]
        have hm : m.step i = m := by
          have e1 : (m.step i).files = m.files := congrArg Prod.fst hs
          have e2 : (m.step i).run = m.run := by
            funext j
            by_cases hj : j = i
            · subst hj
              show (if j = j then (Writer.step W m.files (m.run j)).2 else m.run j) = _
              rw [if_pos rfl, hs]
            · exact hother j hj
          cases hm' : m.step i with
          | mk a b =>
            rw [hm'] at e1 e2
            cases e1
            cases e2
            rfl
        rw [hm]
        exact ⟨fun _ h => h, hi, fun _ => .inl rfl, fun _ _ => rfl⟩
      | cons x rest =>
        have hx : x ∈ (c i).inputs := hi.todo x (by rw [htodo]; exact List.mem_cons_self)
        obtain ⟨content, loc, hc, hmark⟩ := hS i x hx
        have hread : m.files (W.resolve x) = some content := by
          rw [haway _ fun j hj => hN j i _ hj ⟨x, hx, rfl⟩]
          exact hc
        obtain ⟨⟨cs, p1, p2⟩, p3⟩ := processInput_calls W hA m.files _ _ x content loc (E loc) hread hmark
        have hs : Writer.step W m.files (m.run i) = (m.files, ⟨(m.run i).suffix, (m.run i).folder, rest,
            .create loc :: writeCalls loc [] cs, none⟩) := by
          unfold Writer.step
          rw [hd, hi.stop, htodo]
          dsimp only
          rw [hi.suffix, hi.folder, p1, p3]
        have hfiles : (m.step i).files = m.files := congrArg Prod.fst hs
        have hrun : (m.step i).run i = ⟨(m.run i).suffix, (m.run i).folder, rest, .create loc :: writeCalls loc [] cs, none⟩ := by
          show (if i = i then (Writer.step W m.files (m.run i)).2 else m.run i) = _
          rw [if_pos rfl, hs]
        have hkeep : ∀ l, Opened W c E m l → Opened W c E (m.step i) l := fun l hl => by
          have := hl.idle hd (Writer.step W m.files (m.run i)).2
          have e : m.step i = ⟨m.files, fun j => if j = i then (Writer.step W m.files (m.run i)).2 else m.run j⟩ := by
            show (⟨(Writer.step W m.files (m.run i)).1, _⟩ : Writers W ι) = _
            rw [hs]
          rw [e]
          exact this
        obtain ⟨_, _, stem, ext, _, _, _, _, q1, q2, _⟩ := hmark
        refine ⟨hkeep, ⟨by rw [hrun]; exact hi.suffix, by rw [hrun]; exact hi.folder, by rw [hrun], fun y hy => ?_, ?_, fun y hy => ?_⟩,
          fun l => .inl (by rw [hfiles]), fun l _ => by rw [hfiles]⟩
        · rw [hrun] at hy
          exact hi.todo y (by rw [htodo]; exact List.mem_cons_of_mem _ hy)
        · exact .inr ⟨loc, ⟨x, hx, stem, ext, q1, q2⟩, .inl ⟨cs, by rw [hrun], p2⟩⟩
        · rcases hi.did y hy with h | h
          · rw [htodo] at h
            rcases List.mem_cons.mp h with rfl | h
            · refine .inr fun stem' ext' hn => .inr ⟨writeCalls loc [] cs, ?_⟩
              have : some (stem', ext') = some (stem, ext) := ((namedAs_iff _ _ _).mp hn).symm.trans ((namedAs_iff _ _ _).mp q1)
              cases this
              rw [hrun, ← q2]
            · exact .inl (by rw [hrun]; exact h)
          · refine .inr fun stem' ext' hn => ?_
            rcases h stem' ext' hn with h | ⟨cs', h⟩
            · exact .inl (hkeep _ h)
            · rw [hd] at h
              cases h
    · -- a file is created
      obtain ⟨o1, o2⟩ := opened_create hw hd hg
      have hs := writer_step_call W m.files (m.run i) _ _ hd
      have hfiles : (m.step i).files = W.step m.files (l0, []) := congrArg Prod.fst hs
      have hrun : (m.step i).run i = ⟨(m.run i).suffix, (m.run i).folder, (m.run i).todo, writeCalls l0 [] cs, (m.run i).stop⟩ := by
        show (if i = i then (Writer.step W m.files (m.run i)).2 else m.run i) = _
        rw [if_pos rfl, hs]
      refine ⟨o2, ⟨by rw [hrun]; exact hi.suffix, by rw [hrun]; exact hi.folder, by rw [hrun]; exact hi.stop,
        by rw [hrun]; exact hi.todo, ?_, fun y hy => ?_⟩, fun l => ?_, fun l hl => ?_⟩
      · cases cs with
        | nil => exact .inl (by rw [hrun]; rfl)
        | cons d ds => exact .inr ⟨l0, hw, .inr ⟨[], d, ds, by rw [hrun], hg, o1⟩⟩
      · rcases hi.did y hy with h | h
        · exact .inl (by rw [hrun]; exact h)
        · refine .inr fun stem ext hn => .inl ?_
          rcases h stem ext hn with h | ⟨cs', h⟩
          · exact o2 _ h
          · rw [hd] at h
            have := (List.cons.inj h).1
            injection this with e
            rw [← e]
            exact o1
      · by_cases hll : l = l0
        · exact .inr (by rw [hll]; exact o1)
        · exact .inl (by rw [hfiles, step_away _ _ _ _ _ hll])
      · rw [hfiles, step_away]
        rintro rfl
        exact hl i hw
    · -- bytes are written
      have o2 := opened_write (W := W) (c := c) hd hg
      have hs := writer_step_call W m.files (m.run i) _ _ hd
      have hfiles : (m.step i).files = W.step m.files (l0, patch ((m.files l0).getD []) before.length (d.drop before.length)) :=
        congrArg Prod.fst hs
      have hrun : (m.step i).run i = ⟨(m.run i).suffix, (m.run i).folder, (m.run i).todo, writeCalls l0 d ds, (m.run i).stop⟩ := by
        show (if i = i then (Writer.step W m.files (m.run i)).2 else m.run i) = _
        rw [if_pos rfl, hs]
      refine ⟨o2, ⟨by rw [hrun]; exact hi.suffix, by rw [hrun]; exact hi.folder, by rw [hrun]; exact hi.stop,
        by rw [hrun]; exact hi.todo, ?_, fun y hy => ?_⟩, fun l => ?_, fun l hl => ?_⟩
      · cases ds with
        | nil => exact .inl (by rw [hrun]; rfl)
        | cons d' ds => exact .inr ⟨l0, hw, .inr ⟨d, d', ds, by rw [hrun], hg.2, o2 _ ho⟩⟩
      · rcases hi.did y hy with h | h
        · exact .inl (by rw [hrun]; exact h)
        · refine .inr fun stem ext hn => .inl ?_
          rcases h stem ext hn with h | ⟨cs', h⟩
          · exact o2 _ h
          · rw [hd] at h
            cases (List.cons.inj h).1
      · by_cases hll : l = l0
        · exact .inr (by rw [hll]; exact o2 _ ho)
        · exact .inl (by rw [hfiles, step_away _ _ _ _ _ hll])
      · rw [hfiles, step_away]
        rintro rfl
        exact hl i hw
  obtain ⟨k1, k2, k3, k4⟩ := key
  refine ⟨fun j => ?_, fun l => ?_, fun l hl => (k4 l hl).trans (haway l hl)⟩
  · by_cases hj : j = i
    · subst hj
      exact k2
    · have hp := hproc j
      refine ⟨?_, ?_, ?_, ?_, ?_, ?_⟩
      · rw [hother j hj]; exact hp.suffix
      · rw [hother j hj]; exact hp.folder
      · rw [hother j hj]; exact hp.stop
      · rw [hother j hj]; exact hp.todo
      · unfold Doing
        rw [hother j hj]
        rcases hp.doing with h | ⟨l0, hw, h | ⟨before, d, ds, h1, h2, h3⟩⟩
        · exact .inl h
        · exact .inr ⟨l0, hw, .inl h⟩
        · exact .inr ⟨l0, hw, .inr ⟨before, d, ds, h1, h2, k1 _ h3⟩⟩
      · rw [hother j hj]
        intro y hy
        rcases hp.did y hy with h | h
        · exact .inl h
        · exact .inr fun stem ext hn => (h stem ext hn).imp_left (k1 _)
  · rcases k3 l with h | h
    · rcases hframe l with h' | h'
      · exact .inl (h.trans h')
      · exact .inr (k1 _ h')
    · exact .inr h

theorem allOk_exec (hA : W.Appends) (hN : NoOutputRead W c) (hS : SameBytes W c fs E) (schedule : List ι) :
    AllOk W c fs E ((startWriters W c fs).exec schedule) := by
  induction schedule using List.reverseRecOn with
  | nil =>
    exact ⟨fun i => ⟨rfl, rfl, rfl, fun _ h => h, .inl rfl, fun x hx => .inl hx⟩, fun l => .inl rfl, fun l _ => rfl⟩
  | append_singleton schedule i ih =>
    have e : (startWriters W c fs).exec (schedule ++ [i]) = ((startWriters W c fs).exec schedule).step i := by
      unfold Writers.exec
      rw [List.foldl_append]
      rfl
    rw [e]
    exact allOk_step hA hN hS ih i

theorem exec_absent (m : Writers W ι) (schedule : List ι) (i : ι) (hi : i ∉ schedule) : (m.exec schedule).run i = m.run i := by
  induction schedule generalizing m with
  | nil => rfl
  | cons j schedule ih =>
    have e : m.exec (j :: schedule) = (m.step j).exec schedule := rfl
    rw [e, ih _ fun h => hi (List.mem_cons_of_mem _ h)]
    exact if_neg fun h => hi (by rw [h]; exact List.mem_cons_self)

variable (W c fs E)

/-- C100: processes that write the same bytes to the files they share. However their system calls interleave and whichever of them are killed:
no process fails; files that are nobody's output stay as they are; an output is as it was before, or no longer than the right
bytes and right in every byte that is not zero; and once one process that writes it has ended, and every other one that writes it has
ended or not begun, it holds the right bytes. -/
theorem shared_outputs (hA : W.Appends) (hN : NoOutputRead W c) (hS : SameBytes W c fs E) (schedule : List ι) :
    let m := (startWriters W c fs).exec schedule
    (∀ i, (m.run i).stop = none) ∧
    (∀ l, (∀ i, l ∉ (c i).writes W) → m.files l = fs l) ∧
    (∀ l, m.files l = fs l ∨ ∃ content, m.files l = some content ∧ PartlyWritten (E l) content) ∧
    ∀ l, (∃ i, l ∈ (c i).writes W ∧ (m.run i).Ended) → (∀ i ∈ schedule, l ∈ (c i).writes W → (m.run i).Ended) →
      m.files l = some (E l) := by
  intro m
  obtain ⟨hproc, hframe, haway⟩ := allOk_exec hA hN hS schedule
  refine ⟨fun i => (hproc i).stop, haway, fun l => ?_, fun l hex hall => ?_⟩
  · rcases hframe l with h | ⟨content, h1, h2, _⟩
    · exact .inl h
    · exact .inr ⟨content, h1, h2⟩
  · obtain ⟨i, ⟨x, hx, stem, ext, hn, hl⟩, hend⟩ := hex
    have hopen : Opened W c E m l := by
      rcases (hproc i).did x hx with h | h
      · rcases hend.2 with h' | h'
        · exact absurd (hproc i).stop h'
        · rw [h'] at h
          cases h
      · rcases h stem ext hn with h | ⟨cs, h⟩
        · rw [hl]
          exact h
        · rw [hend.1] at h
          cases h
    obtain ⟨content, h1, h2, before, h3, h4, h5, h6⟩ := hopen
    rcases h6 with h6 | ⟨j, hj, d, ds, h7, _⟩
    · rw [h1]
      subst h6
      rw [← h5, List.take_of_length_le h2.1]
    · exfalso
      have hne : (m.run j).calls ≠ [] := by
        rw [h7]
        exact List.cons_ne_nil _ _
      by_cases hjs : j ∈ schedule
      · exact hne (hall j hjs hj).1
      · refine hne ?_
        have := exec_absent (startWriters W c fs) schedule j hjs
        rw [show m.run j = _ from this]
        rfl

omit [FloatOps F] in
/-- What the processes of a schedule do depends on nothing but the files and these processes. -/
theorem exec_congr [FloatOps F] (schedule : List ι) : ∀ (m m' : Writers W ι), m.files = m'.files → (∀ i ∈ schedule, m.run i = m'.run i) →
    (m.exec schedule).files = (m'.exec schedule).files ∧
      ∀ i, m.run i = m'.run i → (m.exec schedule).run i = (m'.exec schedule).run i := by
  induction schedule with
  | nil => exact fun m m' hf _ => ⟨hf, fun _ h => h⟩
  | cons j schedule ih =>
    intro m m' hf hr
    have hj := hr j List.mem_cons_self
    have hstep : (m.step j).files = (m'.step j).files ∧ ∀ i, m.run i = m'.run i → (m.step j).run i = (m'.step j).run i := by
      unfold Writers.step
      dsimp only
      rw [hf, hj]
      refine ⟨rfl, fun i hi => ?_⟩
      by_cases h : i = j
      · rw [if_pos h, if_pos h]
      · rw [if_neg h, if_neg h, hi]
    obtain ⟨e1, e2⟩ := ih (m.step j) (m'.step j) hstep.1 fun i hi => hstep.2 i (hr i (List.mem_cons_of_mem _ hi))
    exact ⟨e1, fun i hi => e2 i (hstep.2 i hi)⟩

/-- C100: starting again. Whatever processes did before, and wherever they were killed: processes that are started after that make their
outputs whole, if each of those that began has ended. -/
theorem shared_again (hA : W.Appends) (hN : NoOutputRead W c) (hS : SameBytes W c fs E) (past schedule : List ι)
    (hnew : ∀ i ∈ schedule, i ∉ past) :
    let m := (startWriters W c fs).exec (past ++ schedule)
    ∀ i ∈ schedule, (∀ j ∈ schedule, (m.run j).Ended) → (m.run i).stop = none ∧ ∀ l ∈ (c i).writes W, m.files l = some (E l) := by
  intro m i hi hall
  have hm : m = ((startWriters W c fs).exec past).exec schedule := by
    show (startWriters W c fs).exec (past ++ schedule) = _
    unfold Writers.exec
    rw [List.foldl_append]
  obtain ⟨-, haway, -⟩ := shared_outputs W c fs E hA hN hS past
  set m0 := (startWriters W c fs).exec past with hm0
  have hS' : SameBytes W c m0.files E := by
    intro j x hx
    obtain ⟨content, loc, h1, h2⟩ := hS j x hx
    refine ⟨content, loc, ?_, h2⟩
    rw [haway _ fun k hk => hN k j _ hk ⟨x, hx, rfl⟩]
    exact h1
  obtain ⟨e1, e2⟩ := exec_congr W schedule m0 (startWriters W c m0.files) rfl fun j hj => exec_absent (startWriters W c fs) past j (hnew j hj)
  have hrun : ∀ j ∈ schedule, m.run j = ((startWriters W c m0.files).exec schedule).run j := fun j hj => by
    rw [hm]
    exact e2 j (exec_absent (startWriters W c fs) past j (hnew j hj))
  obtain ⟨s1, -, -, s4⟩ := shared_outputs W c m0.files E hA hN hS' schedule
  refine ⟨by rw [hrun i hi]; exact s1 i, fun l hl => ?_⟩
  rw [hm, e1]
  exact s4 l ⟨i, hl, by rw [← hrun i hi]; exact hall i hi⟩ fun j hj _ => by rw [← hrun j hj]; exact hall j hj

end
end Sia
