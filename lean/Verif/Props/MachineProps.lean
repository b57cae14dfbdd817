import Verif.Spec.MachineSpec
import Verif.Props.FloatProps
import Verif.Props.RandomProps
import Verif.Lemmas.RectLemmas

/-! C75: the compiled program with its fixed-width integers computes what the model with unbounded integers says, in debug and
release builds, on 32-bit and 64-bit targets. -/
namespace Sia

theorem SameResult.refl {α : Type} (a : Res α) : SameResult a a := fun _ => Iff.rfl

theorem SameResult.of_eq {α : Type} {a b : Res α} (h : a = b) : SameResult a b := h ▸ SameResult.refl a

theorem SameResult.symm {α : Type} {a b : Res α} (h : SameResult a b) : SameResult b a := fun r => (h r).symm

theorem SameResult.trans {α : Type} {a b c : Res α} (h : SameResult a b) (h' : SameResult b c) : SameResult a c :=
  fun r => (h r).trans (h' r)

theorem bind_ok_iff {α β : Type} (a : Res α) (f : α → Res β) (r : β) :
    (a >>= f) = .ok r ↔ ∃ x, a = .ok x ∧ f x = .ok r := by
  cases a with
  | error e => simp [bind, Except.bind]
  | ok x => simp [bind, Except.bind]

theorem SameResult.bind {α β : Type} {a b : Res α} {f g : α → Res β} (h : SameResult a b)
    (hf : ∀ x, b = .ok x → SameResult (f x) (g x)) : SameResult (a >>= f) (b >>= g) := by
  intro r
  rw [bind_ok_iff, bind_ok_iff]
  constructor
  · rintro ⟨x, h1, h2⟩
    exact ⟨x, (h x).1 h1, (hf x ((h x).1 h1) r).1 h2⟩
  · rintro ⟨x, h1, h2⟩
    exact ⟨x, (h x).2 h1, (hf x h1 r).2 h2⟩

theorem ok_bind {α β : Type} (x : α) (f : α → Res β) : ((Except.ok x : Res α) >>= f) = f x := rfl

theorem error_bind {α β : Type} (e : Panic) (f : α → Res β) : ((Except.error e : Res α) >>= f) = .error e := rfl

theorem usize_ok (T : Target) (n : Nat) (h : n < 2 ^ T.bits) : T.usize (n : Int) = .ok n := by
  unfold Target.usize Target.unsigned
  rw [if_pos ⟨by positivity, by exact_mod_cast h⟩, Int.toNat_natCast]

theorem two_pow_le_bits (T : Target) (hT : T.Valid) (k : Nat) (hk : k ≤ 32) : 2 ^ k ≤ 2 ^ T.bits := by
  apply Nat.pow_le_pow_right (by norm_num)
  rcases hT with h | h <;> omega

theorem floorQuotient_eq (T : Target) (a b : Nat) (ha : a < 2 ^ 53) (hb : 0 < b) (hb2 : b < 2 ^ 53) (h : a / b < 2 ^ T.bits) :
    T.floorQuotient a b = a / b := by
  unfold Target.floorQuotient
  obtain ⟨h1, h2, _⟩ := rne64_quotient a b ha hb hb2
  rw [f64_div_nat a b ha hb hb2]
  have hfl : ⌊rne64 ((a : ℚ) / b)⌋ = ((a / b : ℕ) : ℤ) := by
    rw [Int.floor_eq_iff]
    exact ⟨by exact_mod_cast h1, by exact_mod_cast h2⟩
  have hq : ((a / b : ℕ) : ℤ) < 2 ^ T.bits := by exact_mod_cast h
  have : clampZ 0 (2 ^ T.bits - 1) (truncZ ((⌊rne64 ((a : ℚ) / b)⌋ : ℤ) : ℚ)) = ((a / b : ℕ) : ℤ) := by
    rw [hfl]
    unfold truncZ
    rw [if_pos (by positivity), Int.floor_intCast]
    unfold clampZ
    generalize a / b = q at hq ⊢
    rw [if_neg (by omega), if_neg (by omega)]
  show (clampZ 0 (2 ^ T.bits - 1) (truncZ ((⌊rne64 ((a : ℚ) / b)⌋ : ℤ) : ℚ))).toNat = _
  rw [this, Int.toNat_natCast]

theorem pow2_small (T : Target) (e : Nat) (he : e < 31) : T.pow2 e = .ok (2 ^ e) := by
  unfold Target.pow2 Target.signed
  have h1 : e % 2 ^ 32 = e := Nat.mod_eq_of_lt (by omega)
  rw [h1, if_pos]
  constructor
  · have : (0 : ℤ) ≤ 2 ^ e := by positivity
    have h0 : (-2 : ℤ) ^ (32 - 1) ≤ 0 := by norm_num
    have h3 : (-2 : ℤ) ^ (32 - 1) = -2 ^ (32 - 1) := by norm_num
    omega
  · have : (2 : ℤ) ^ e < 2 ^ 31 := by gcongr; norm_num
    simpa using this

theorem wrapSigned_small (n : Nat) (h : n < 2 ^ 31) : wrapSigned 32 n = n := by
  unfold wrapSigned Int.bmod
  norm_num at h ⊢
  omega

theorem sideOf_small (T : Target) (n e : Nat) (hn : n < 2 ^ 31) (he : e < 31) : T.sideOf n e = .ok ((n / 2 ^ e : ℕ) : ℤ) := by
  unfold Target.sideOf
  rw [pow2_small T e he, ok_bind, if_neg (by positivity), wrapSigned_small n hn]
  have : Int.tdiv (n : ℤ) (2 ^ e) = ((n / 2 ^ e : ℕ) : ℤ) := by
    rw [Int.tdiv_eq_ediv_of_nonneg (by positivity)]
    push_cast
    rfl
  rw [this]
  rfl

theorem asUsize_small (T : Target) (hT : T.Valid) (n : Nat) (h : n < 2 ^ 31) : T.asUsize n = n := by
  unfold Target.asUsize
  have h1 := two_pow_le_bits T hT 31 (by norm_num)
  have h2 : ((n : ℤ)) % 2 ^ T.bits = n := by
    apply Int.emod_eq_of_lt (by positivity)
    exact_mod_cast lt_of_lt_of_le h h1
  rw [h2, Int.toNat_natCast]

theorem machine_iteration (T : Target) (hT : T.Valid) (b : Bool) (m : Mat F64) (e : Nat) (hr : m.rows < 2 ^ 31) (hc : m.cols < 2 ^ 31)
    (he : e < 31) : T.dwtIteration b m e = Sia.dwtIteration b m e := by
  unfold Target.dwtIteration Sia.dwtIteration
  have h1 : m.rows / 2 ^ e ≤ m.rows := Nat.div_le_self _ _
  have h2 : m.cols / 2 ^ e ≤ m.cols := Nat.div_le_self _ _
  rw [sideOf_small T _ e hr he, sideOf_small T _ e hc he, ok_bind, ok_bind]
  dsimp only
  rw [asUsize_small T hT _ (lt_of_le_of_lt h1 hr), asUsize_small T hT _ (lt_of_le_of_lt h2 hc),
    if_neg (show ¬ (m.rows < m.rows / 2 ^ e ∨ m.cols < m.cols / 2 ^ e) by omega), if_neg (show ¬ 31 ≤ e by omega)]
  rfl

theorem iteration_dims (T : Target) (b : Bool) (m m' : Mat F64) (e : Nat) (h : T.dwtIteration b m e = .ok m') :
    m'.rows = m.rows ∧ m'.cols = m.cols := by
  unfold Target.dwtIteration at h
  rw [bind_ok_iff] at h
  obtain ⟨w, _, h⟩ := h
  rw [bind_ok_iff] at h
  obtain ⟨v, _, h⟩ := h
  dsimp only at h
  split_ifs at h <;> cases h
  exact ⟨rfl, rfl⟩

theorem machine_fold (T : Target) (hT : T.Valid) (b : Bool) (l : List Nat) (hl : ∀ e ∈ l, e < 31) : ∀ m : Mat F64,
    m.rows < 2 ^ 31 → m.cols < 2 ^ 31 → l.foldlM (T.dwtIteration b) m = l.foldlM (Sia.dwtIteration b) m := by
  induction l with
  | nil => intro m _ _; rw [List.foldlM_nil, List.foldlM_nil]
  | cons e l ih =>
    intro m hr hc
    rw [List.foldlM_cons, List.foldlM_cons, machine_iteration T hT b m e hr hc (hl e List.mem_cons_self)]
    cases h : Sia.dwtIteration b m e with
    | error x => rw [error_bind, error_bind]
    | ok m' =>
      rw [ok_bind, ok_bind]
      obtain ⟨h1, h2, _⟩ := dwtIteration_dims b m m' e h
      exact ih (fun e he => hl e (List.mem_cons_of_mem _ he)) m' (h1 ▸ hr) (h2 ▸ hc)

theorem machine_dwt (T : Target) (hT : T.Valid) (m : Mat F64) (L : Nat) (b : Bool) (hr : m.rows < 2 ^ 31) (hc : m.cols < 2 ^ 31)
    (h1 : 1 ≤ L) (h2 : L ≤ 31) : T.dwt2d m L b = Sia.dwt2d m L b := by
  unfold Target.dwt2d Sia.dwt2d
  have e1 : ((L : Int) - 1) = ((L - 1 : ℕ) : ℤ) := by omega
  have := two_pow_le_bits T hT 31 (by norm_num)
  have e2 : L - 1 + 1 = L := by omega
  rw [e1, usize_ok T _ (by omega), ok_bind, if_neg (show ¬ L = 0 by omega), e2]
  cases b
  · exact machine_fold T hT false _ (fun e he => by have := List.mem_range.1 he; omega) m hr hc
  · exact machine_fold T hT true _ (fun e he => by have := List.mem_range.1 (List.mem_reverse.1 he); omega) m hr hc

theorem machine_forward_error (T : Target) (hT : T.Valid) (m : Mat F64) (L : Nat) (hr : m.rows < 2 ^ 31) (hc : m.cols < 2 ^ 31)
    (hr0 : 0 < m.rows) (hc0 : 0 < m.cols) (hL : L < 2 ^ T.bits) (h : L = 0 ∨ 31 < L) : ∃ e, T.dwt2d m L false = .error e := by
  have key : ∀ last, 30 ≤ last → ∃ e, (List.range (last + 1)).foldlM (T.dwtIteration false) m = .error e := by
    intro last hlast
    have : List.range (last + 1) = List.range 31 ++ (List.range (last - 30)).map (31 + ·) := by
      rw [← List.range_add]; congr 1; omega
    rw [this, List.foldlM_append, machine_fold T hT false _ (fun e he => List.mem_range.1 he) m hr hc]
    cases hf : (List.range 31).foldlM (Sia.dwtIteration false) m with
    | error e => exact ⟨e, rfl⟩
    | ok m' =>
      have hd : Sia.dwt2d m 31 false = .ok m' := by
        unfold Sia.dwt2d
        rw [if_neg (by norm_num)]
        exact hf
      obtain ⟨_, _, h3, _⟩ := dwt2d_forward_dvd m m' 31 hr0 hc0 hd
      have := Nat.le_of_dvd hr0 h3
      omega
  unfold Target.dwt2d
  have hb := two_pow_le_bits T hT 32 (by norm_num)
  rcases h with rfl | h
  · unfold Target.usize Target.unsigned
    rw [if_neg (by simp)]
    simp only [Bool.false_eq_true, if_false]
    cases T.checked
    · rw [if_neg (by simp), ok_bind]
      refine key _ ?_
      have : (((0 : ℕ) : ℤ) - 1) % 2 ^ T.bits = 2 ^ T.bits - 1 := by
        have hp : (0 : ℤ) < 2 ^ T.bits := by positivity
        have e : (((0 : ℕ) : ℤ) - 1) = (2 ^ T.bits - 1) + 2 ^ T.bits * (-1) := by push_cast; ring
        rw [e, Int.add_mul_emod_self_left, Int.emod_eq_of_lt (by omega) (by omega)]
      rw [this]
      have : (2 : ℤ) ^ 32 ≤ 2 ^ T.bits := by exact_mod_cast hb
      omega
    · exact ⟨_, rfl⟩
  · have e1 : ((L : Int) - 1) = ((L - 1 : ℕ) : ℤ) := by omega
    rw [e1, usize_ok T _ (by omega), ok_bind]
    exact key _ (by omega)

theorem machine_forward (T : Target) (hT : T.Valid) (m : Mat F64) (L : Nat) (hr : m.rows < 2 ^ 31) (hc : m.cols < 2 ^ 31)
    (hr0 : 0 < m.rows) (hc0 : 0 < m.cols) (hL : L < 2 ^ T.bits) : SameResult (T.dwt2d m L false) (Sia.dwt2d m L false) := by
  by_cases h : 1 ≤ L ∧ L ≤ 31
  · exact .of_eq (machine_dwt T hT m L false hr hc h.1 h.2)
  · obtain ⟨e, he⟩ := machine_forward_error T hT m L hr hc hr0 hc0 hL (by omega)
    intro r
    rw [he]
    refine ⟨fun h => (by cases h), fun h' => ?_⟩
    obtain ⟨h1, h2, _⟩ := dwt2d_forward_dvd m r L hr0 hc0 h'
    exact absurd ⟨h1, h2⟩ h

theorem machine_dims (T : Target) (m m' : Mat F64) (L : Nat) (b : Bool) (h : T.dwt2d m L b = .ok m') :
    m'.rows = m.rows ∧ m'.cols = m.cols := by
  unfold Target.dwt2d at h
  rw [bind_ok_iff] at h
  obtain ⟨last, _, h⟩ := h
  exact foldlM_dims _ (fun m x m' h => iteration_dims T b m m' x h) _ m m' h

theorem capacity_eq (T : Target) (w h : Nat) (h1 : w * h < 2 ^ 53) (h2 : w * h < 2 ^ T.bits) :
    T.getCapacity w h = .ok (getCapacity w h) := by
  unfold Target.getCapacity
  have : ((w : Int) * h) = ((w * h : ℕ) : ℤ) := by push_cast; rfl
  rw [this, usize_ok T _ h2, ok_bind, floorQuotient_eq T _ 8 h1 (by norm_num) (by norm_num)
    (lt_of_le_of_lt (Nat.div_le_self _ _) h2)]
  rfl

theorem columnAndRow_eq (T : Target) (offset w h : Nat) (h1 : offset < 2 ^ 53) (h2 : offset < 2 ^ T.bits) (hw : 0 < w)
    (hh : 0 < h) (hh2 : h < 2 ^ 53) : T.getColumnAndRow offset w h = .ok (getColumnAndRow offset w h) := by
  unfold Target.getColumnAndRow getColumnAndRow
  rw [if_neg (by omega), floorQuotient_eq T _ h h1 hh hh2 (lt_of_le_of_lt (Nat.div_le_self _ _) h2)]

theorem writeBits_eq (T : Target) (depth : F64) (l : List Bool) : ∀ (offset : Nat) (d : Mat F64), 0 < d.rows → 0 < d.cols →
    d.cols < 2 ^ 53 → offset + l.length < 2 ^ 53 → offset + l.length < 2 ^ T.bits →
    l.foldlM (T.writeBit depth) (offset, d) = l.foldlM (Sia.writeBit depth) (offset, d) := by
  induction l with
  | nil => intros; rfl
  | cons bit l ih =>
    intro offset d hr hc hc2 h1 h2
    rw [List.length_cons] at h1 h2
    have hstep : T.writeBit depth (offset, d) bit = Sia.writeBit depth (offset, d) bit := by
      unfold Target.writeBit Sia.writeBit
      dsimp only
      rw [columnAndRow_eq T offset _ _ (by omega) (by omega) hr hc hc2, ok_bind]
      have : ((offset : Int) + 1) = ((offset + 1 : ℕ) : ℤ) := by push_cast; rfl
      rw [this, usize_ok T _ (by omega)]
      rfl
    rw [List.foldlM_cons, List.foldlM_cons, hstep]
    cases h : Sia.writeBit depth (offset, d) bit with
    | error e => rfl
    | ok st =>
      unfold Sia.writeBit at h
      dsimp only at h
      split_ifs at h
      cases h
      exact ih (offset + 1) _ hr hc hc2 (by omega) (by omega)

theorem bytesBits_len (bs : List UInt8) : (bytesBits bs).length = 8 * bs.length := by
  unfold bytesBits
  induction bs with
  | nil => rfl
  | cons b bs ih => rw [List.flatMap_cons, List.length_append, ih]; simp [byteBits]; ring

theorem machine_write (T : Target) (d : Mat F64) (bytes : List UInt8) (depth : F64) (hr : 0 < d.rows) (hc : 0 < d.cols)
    (h1 : d.rows * d.cols < 2 ^ 53) (h2 : d.rows * d.cols < 2 ^ T.bits) : T.write d bytes depth = Sia.write d bytes depth := by
  unfold Target.write Sia.write
  rw [capacity_eq T _ _ h1 h2, ok_bind]
  dsimp only
  by_cases hcap : getCapacity d.rows d.cols < bytes.length
  · rw [if_pos hcap, if_pos hcap]; rfl
  · rw [if_neg hcap, if_neg hcap]
    have hlen : (bytesBits bytes).length ≤ d.rows * d.cols := by
      rw [bytesBits_len]; unfold getCapacity at hcap; omega
    have hcols : d.cols ≤ d.rows * d.cols := Nat.le_mul_of_pos_left _ hr
    rw [writeBits_eq T depth _ 0 d hr hc (by omega) (by omega) (by omega)]

theorem readBit_eq (T : Target) (d : Mat F64) (depth : F64) (offset : Nat) (hr : 0 < d.rows) (hc : 0 < d.cols) (hc2 : d.cols < 2 ^ 53)
    (h1 : offset < 2 ^ 53) (h2 : offset + 1 < 2 ^ T.bits) :
    T.readBit d depth offset = (Sia.readBit d depth offset).map (fun b => (b, offset + 1)) := by
  unfold Target.readBit Sia.readBit
  rw [columnAndRow_eq T offset _ _ h1 (by omega) hr hc hc2, ok_bind]
  dsimp only
  have : ((offset : Int) + 1) = ((offset + 1 : ℕ) : ℤ) := by push_cast; rfl
  rw [this, usize_ok T _ h2]
  split_ifs <;> rfl

theorem readBits_eq (T : Target) (d : Mat F64) (depth : F64) (hr : 0 < d.rows) (hc : 0 < d.cols) (hc2 : d.cols < 2 ^ 53) (n : Nat) :
    ∀ offset, offset + n < 2 ^ 53 → offset + n < 2 ^ T.bits →
    T.readBits d depth n offset = ((List.range n).mapM fun i => Sia.readBit d depth (offset + i)).map (fun bs => (bs, offset + n)) := by
  induction n with
  | zero => intros; rfl
  | succ n ih =>
    intro offset h1 h2
    unfold Target.readBits
    rw [readBit_eq T d depth offset hr hc hc2 (by omega) (by omega), List.range_succ_eq_map, List.mapM_cons, List.mapM_map]
    rw [Nat.add_zero]
    cases h : Sia.readBit d depth offset with
    | error e => rfl
    | ok b =>
      show (T.readBits d depth n (offset + 1) >>= fun x => pure (b :: x.1, x.2)) = _
      rw [ih (offset + 1) (by omega) (by omega)]
      have : (fun i => Sia.readBit d depth (offset + 1 + i)) = fun i => Sia.readBit d depth (offset + Nat.succ i) := by
        funext i; congr 1; omega
      rw [this]
      cases h' : (List.range n).mapM fun i => Sia.readBit d depth (offset + Nat.succ i) with
      | error e => simp [Except.map, bind, Except.bind, Function.comp_def, h'] 
      | ok bs =>
        simp [Except.map, bind, Except.bind, pure, Except.pure, Function.comp_def, h']
        omega

theorem readBytes_eq (T : Target) (d : Mat F64) (depth : F64) (hr : 0 < d.rows) (hc : 0 < d.cols) (hc2 : d.cols < 2 ^ 53) (n : Nat) :
    ∀ k, 8 * (k + n) < 2 ^ 53 → 8 * (k + n) < 2 ^ T.bits →
    T.readBytes d depth n (8 * k) = (List.range n).mapM fun i => Sia.readByte d depth (k + i) := by
  induction n with
  | zero => intros; rfl
  | succ n ih =>
    intro k h1 h2
    unfold Target.readBytes
    rw [readBits_eq T d depth hr hc hc2 8 (8 * k) (by omega) (by omega)]
    conv_rhs => rw [List.range_succ_eq_map, List.mapM_cons, List.mapM_map, Nat.add_zero]
    have hb : Sia.readByte d depth k = (((List.range 8).mapM fun i => Sia.readBit d depth (8 * k + i)).map bitsByte) := by
      unfold Sia.readByte
      cases (List.range 8).mapM fun i => Sia.readBit d depth (8 * k + i) <;> rfl
    rw [hb]
    cases h : (List.range 8).mapM fun i => Sia.readBit d depth (8 * k + i) with
    | error e => rfl
    | ok b =>
      show (T.readBytes d depth n (8 * k + 8) >>= fun x => pure (bitsByte b :: x)) = _
      have e : 8 * k + 8 = 8 * (k + 1) := by ring
      rw [e, ih (k + 1) (by omega) (by omega)]
      have : (fun i => Sia.readByte d depth (k + 1 + i)) = fun i => Sia.readByte d depth (k + Nat.succ i) := by
        funext i; congr 1; omega
      rw [this]
      rfl

theorem machine_read (T : Target) (d : Mat F64) (depth : F64) (hr : 0 < d.rows) (hc : 0 < d.cols)
    (h1 : d.rows * d.cols < 2 ^ 53) (h2 : d.rows * d.cols < 2 ^ T.bits) : T.read d depth = Sia.read d depth := by
  unfold Target.read Sia.read
  have hcols : d.cols ≤ d.rows * d.cols := Nat.le_mul_of_pos_left _ hr
  have hcap : 8 * getCapacity d.rows d.cols ≤ d.rows * d.cols := by unfold getCapacity; omega
  rw [capacity_eq T _ _ h1 h2, ok_bind]
  have := readBytes_eq T d depth hr hc (by omega) (getCapacity d.rows d.cols) 0 (by omega) (by omega)
  rw [Nat.mul_zero] at this
  rw [this]
  congr 1
  funext i
  rw [Nat.zero_add]

theorem getCode_eq (T : Target) (n : Nat) (h : n * 8 < 2 ^ T.bits) : T.getCode n = .ok (getCodeByCodewordLength n) := by
  unfold Target.getCode getCodeByCodewordLength
  have : ((n : Int) * 8) = ((n * 8 : ℕ) : ℤ) := by push_cast; rfl
  rw [this, usize_ok T _ h]
  rfl

theorem machine_encode (T : Target) (L : Ldpc) (input : List UInt8) (n : Nat) (h : n * 8 < 2 ^ T.bits) :
    T.encode L input n = .ok (Sia.encode L input n) := by
  unfold Target.encode Sia.encode
  rw [getCode_eq T n h]
  cases getCodeByCodewordLength n <;> rfl

theorem machine_decode (T : Target) (hT : T.Valid) (L : Ldpc) (bytes : List UInt8) (n : Nat) (h : n * 8 < 2 ^ T.bits) :
    T.decode L bytes n = Sia.decode L bytes n := by
  unfold Target.decode Sia.decode
  rw [getCode_eq T n h, ok_bind]
  cases getCodeByCodewordLength n with
  | none => rfl
  | some code =>
    dsimp only
    congr 1
    funext words
    have key : ∀ b1 b2 : UInt8, T.usize ((bytesToU16 b1 b2 : Int) + 2) = .ok (bytesToU16 b1 b2 + 2) := by
      intro b1 b2
      have hb : bytesToU16 b1 b2 < 65536 := by
        unfold bytesToU16
        have h1 := b1.toNat_lt
        have h2 := b2.toNat_lt
        omega
      have := two_pow_le_bits T hT 31 (by norm_num)
      have e : ((bytesToU16 b1 b2 : Int) + 2) = ((bytesToU16 b1 b2 + 2 : ℕ) : ℤ) := by push_cast; rfl
      rw [e, usize_ok T _ (by omega)]
    simp only [key, ok_bind]
    rfl

theorem domainSide_small (T : Target) (hT : T.Valid) (n e : Nat) (he : e ≤ 30) : T.domainSide n e = .ok (n / 2 ^ e) := by
  unfold Target.domainSide
  have h1 : (2 : ℤ) ^ e = ((2 ^ e : ℕ) : ℤ) := by push_cast; rfl
  have h2 : 2 ^ e < 2 ^ 31 := Nat.pow_lt_pow_right (by norm_num) (by omega)
  rw [pow2_small T e (by omega), ok_bind, h1, asUsize_small T hT _ h2, if_neg (by positivity)]
  rfl

theorem domainCapacity_eq (T : Target) (w h : Nat) (h1 : w * h < 2 ^ 53) (h2 : w * h < 2 ^ T.bits) :
    T.getDomainCapacity w h = Sia.getDomainCapacity w h := by
  unfold Target.getDomainCapacity Sia.getDomainCapacity
  rw [capacity_eq T w h h1 h2, ok_bind]
  dsimp only
  cases getCodeForEncode (getCapacity w h) <;> rfl

theorem domainCapacity_zero (T : Target) (w h : Nat) (h0 : w = 0 ∨ h = 0) :
    T.getDomainCapacity w h = .error .capacityBelowMinimum ∧ Sia.getDomainCapacity w h = .error .capacityBelowMinimum := by
  have e : w * h = 0 := by rcases h0 with rfl | rfl <;> simp
  have hp : 0 < 2 ^ T.bits := by positivity
  have : Sia.getDomainCapacity w h = .error .capacityBelowMinimum := by
    unfold Sia.getDomainCapacity getCapacity
    rw [e]
    rfl
  exact ⟨(domainCapacity_eq T w h (by omega) (by omega)).trans this, this⟩

theorem embed_parts {F : Type} [FloatOps F] (L : Ldpc) (image : Mat UInt8) (bytes : List UInt8) (depth : F) (levels : Nat)
    (h : levels ≤ 30) : Sia.embed L image bytes depth levels = (do
      let c ← Sia.dwt2d (image.map (pixelToFloat (F := F))) levels false
      let capacity ← Sia.getDomainCapacity (c.rows / 2 ^ levels) (c.cols / 2 ^ levels)
      let serialized ← dataSerialize bytes
      let written ← Sia.write ⟨c.rows / 2 ^ levels, c.cols / 2 ^ levels, c.get⟩ (Sia.encode L serialized capacity) depth
      let restored ← Sia.dwt2d { c with get := written.get } levels true
      return restored.map floatToPixel) := by
  unfold Sia.embed
  simp only [if_neg (show ¬ 31 ≤ levels by omega)]
  rfl

theorem extract_parts {F : Type} [FloatOps F] (L : Ldpc) (image : Mat UInt8) (depth : F) (levels : Nat)
    (h : levels ≤ 30) : Sia.extract L image depth levels = (do
      let c ← Sia.dwt2d (image.map (pixelToFloat (F := F))) levels false
      let extracted ← Sia.read ⟨c.rows / 2 ^ levels, c.cols / 2 ^ levels, c.get⟩ depth
      let capacity ← Sia.getDomainCapacity (c.rows / 2 ^ levels) (c.cols / 2 ^ levels)
      let decoded ← Sia.decode L extracted capacity
      dataDeserialize decoded) := by
  unfold Sia.extract
  simp only [if_neg (show ¬ 31 ≤ levels by omega)]
  rfl

/-- The forward transform of a non-empty image that fits succeeds, in either model, only for 1 to 30 levels. -/
theorem levels_of_forward (m m' : Mat F64) (L : Nat) (hr : 0 < m.rows) (hc : 0 < m.cols) (hb : m.rows < 2 ^ 31)
    (h : Sia.dwt2d m L false = .ok m') : 1 ≤ L ∧ L ≤ 30 ∧ 2 ^ L ∣ m.rows ∧ 2 ^ L ∣ m.cols := by
  obtain ⟨h1, h2, h3, h4⟩ := dwt2d_forward_dvd m m' L hr hc h
  refine ⟨h1, ?_, h3, h4⟩
  by_contra h5
  have : L = 31 := by omega
  subst this
  have := Nat.le_of_dvd hr h3
  omega

theorem domain_fits (T : Target) (r c e : Nat) (hf : Fits T r c) :
    r / 2 ^ e * (c / 2 ^ e) < 2 ^ 53 ∧ r / 2 ^ e * (c / 2 ^ e) < 2 ^ T.bits ∧ r / 2 ^ e * (c / 2 ^ e) ≤ r * c := by
  have : r / 2 ^ e * (c / 2 ^ e) ≤ r * c := Nat.mul_le_mul (Nat.div_le_self _ _) (Nat.div_le_self _ _)
  exact ⟨lt_of_le_of_lt this hf.exact, lt_of_le_of_lt this hf.size, this⟩

/-- C75: `embed` in every build and on every target returns what the model says, for every image that fits, payload, depth and number
of levels. -/
theorem machine_embed (T : Target) (hT : T.Valid) (L : Ldpc) (image : Mat UInt8) (bytes : List UInt8) (depth : F64) (levels : Nat)
    (hf : Fits T image.rows image.cols) (hl : levels < 2 ^ T.bits) :
    SameResult (T.embed L image bytes depth levels) (Sia.embed L image bytes depth levels) := by
  by_cases h0 : image.rows = 0 ∨ image.cols = 0
  · intro r
    constructor
    · intro h
      exfalso
      unfold Target.embed at h
      simp only [bind_ok_iff] at h
      obtain ⟨c, _, w, hw, v, hv, cap, hcap, _⟩ := h
      unfold Target.domainSide at hw hv
      simp only [bind_ok_iff] at hw hv
      obtain ⟨p, _, hw⟩ := hw
      obtain ⟨q, _, hv⟩ := hv
      split_ifs at hw hv <;> cases hw <;> cases hv
      have : image.rows / T.asUsize p = 0 ∨ image.cols / T.asUsize q = 0 := by
        rcases h0 with h | h <;> simp [h]
      rw [(domainCapacity_zero T _ _ this).1] at hcap
      cases hcap
    · intro h
      exfalso
      unfold Sia.embed at h
      simp only [bind_ok_iff] at h
      obtain ⟨c, hc, h⟩ := h
      obtain ⟨d1, d2⟩ := dwt2d_dims _ c levels false hc
      split_ifs at h
      · cases h
      · simp only [bind_ok_iff] at h
        obtain ⟨cap, hcap, _⟩ := h
        have : (lowLow c levels).rows = 0 ∨ (lowLow c levels).cols = 0 := by
          show c.rows / _ = 0 ∨ c.cols / _ = 0
          rw [d1, d2]
          show image.rows / _ = 0 ∨ image.cols / _ = 0
          rcases h0 with h | h <;> simp [h]
        rw [(domainCapacity_zero T _ _ this).2] at hcap
        cases hcap
  · have hr0 : 0 < image.rows := by omega
    have hc0 : 0 < image.cols := by omega
    have hfw := machine_forward T hT (image.map pixelToFloat) levels hf.rows hf.cols hr0 hc0 hl
    by_cases hlev : levels ≤ 30
    · rw [embed_parts L image bytes depth levels hlev]
      unfold Target.embed
      refine hfw.bind fun c hc => .of_eq ?_
      obtain ⟨d1, d2⟩ := dwt2d_dims _ c levels false hc
      obtain ⟨l1, _, l3, l4⟩ := levels_of_forward _ c levels hr0 hc0 hf.rows hc
      change c.rows = image.rows at d1
      change c.cols = image.cols at d2
      change 2 ^ levels ∣ image.rows at l3
      change 2 ^ levels ∣ image.cols at l4
      obtain ⟨b1, b2, _⟩ := domain_fits T _ _ levels hf
      rw [domainSide_small T hT _ _ hlev, domainSide_small T hT _ _ hlev, ok_bind, ok_bind, domainCapacity_eq T _ _ b1 b2, d1, d2]
      have w0 : 0 < image.rows / 2 ^ levels := Nat.div_pos (Nat.le_of_dvd hr0 l3) (by positivity)
      have v0 : 0 < image.cols / 2 ^ levels := Nat.div_pos (Nat.le_of_dvd hc0 l4) (by positivity)
      cases hcap : Sia.getDomainCapacity (image.rows / 2 ^ levels) (image.cols / 2 ^ levels) with
      | error e => rfl
      | ok cap =>
        rw [ok_bind, ok_bind]
        have hcapv : cap * 8 < 2 ^ T.bits := by
          unfold Sia.getDomainCapacity getCapacity at hcap
          dsimp only at hcap
          split at hcap
          · cases hcap
          · cases hcap
            have := Nat.div_mul_le_self (image.rows / 2 ^ levels * (image.cols / 2 ^ levels)) 8
            omega
        congr 1
        funext serialized
        rw [machine_encode T L serialized cap hcapv, ok_bind, machine_write T _ _ depth w0 v0 b1 b2]
        congr 1
        funext written
        rw [machine_dwt T hT _ levels true hf.rows hf.cols
          l1 (by omega)]
    · intro r
      constructor
      · intro h
        unfold Target.embed at h
        rw [bind_ok_iff] at h
        obtain ⟨c, hc, _⟩ := h
        have := levels_of_forward _ c levels hr0 hc0 hf.rows ((hfw c).1 hc)
        omega
      · intro h
        unfold Sia.embed at h
        rw [bind_ok_iff] at h
        obtain ⟨c, hc, _⟩ := h
        have := levels_of_forward _ c levels hr0 hc0 hf.rows hc
        omega

/-- C75: `extract` in every build and on every target returns what the model says, for every image that fits, depth and number of
levels. -/
theorem machine_extract (T : Target) (hT : T.Valid) (L : Ldpc) (image : Mat UInt8) (depth : F64) (levels : Nat)
    (hf : Fits T image.rows image.cols) (hl : levels < 2 ^ T.bits) :
    SameResult (T.extract L image depth levels) (Sia.extract L image depth levels) := by
  by_cases h0 : image.rows = 0 ∨ image.cols = 0
  · intro r
    constructor
    · intro h
      exfalso
      unfold Target.extract at h
      simp only [bind_ok_iff] at h
      obtain ⟨c, _, w, hw, v, hv, _, _, cap, hcap, _⟩ := h
      unfold Target.domainSide at hw hv
      simp only [bind_ok_iff] at hw hv
      obtain ⟨p, _, hw⟩ := hw
      obtain ⟨q, _, hv⟩ := hv
      split_ifs at hw hv <;> cases hw <;> cases hv
      have : image.rows / T.asUsize p = 0 ∨ image.cols / T.asUsize q = 0 := by
        rcases h0 with h | h <;> simp [h]
      rw [(domainCapacity_zero T _ _ this).1] at hcap
      cases hcap
    · intro h
      exfalso
      unfold Sia.extract at h
      simp only [bind_ok_iff] at h
      obtain ⟨c, hc, h⟩ := h
      obtain ⟨d1, d2⟩ := dwt2d_dims _ c levels false hc
      split_ifs at h
      · cases h
      · simp only [bind_ok_iff] at h
        obtain ⟨_, _, cap, hcap, _⟩ := h
        have : (lowLow c levels).rows = 0 ∨ (lowLow c levels).cols = 0 := by
          show c.rows / _ = 0 ∨ c.cols / _ = 0
          rw [d1, d2]
          show image.rows / _ = 0 ∨ image.cols / _ = 0
          rcases h0 with h | h <;> simp [h]
        rw [(domainCapacity_zero T _ _ this).2] at hcap
        cases hcap
  · have hr0 : 0 < image.rows := by omega
    have hc0 : 0 < image.cols := by omega
    have hfw := machine_forward T hT (image.map pixelToFloat) levels hf.rows hf.cols hr0 hc0 hl
    by_cases hlev : levels ≤ 30
    · rw [extract_parts L image depth levels hlev]
      unfold Target.extract
      refine hfw.bind fun c hc => .of_eq ?_
      obtain ⟨d1, d2⟩ := dwt2d_dims _ c levels false hc
      obtain ⟨l1, _, l3, l4⟩ := levels_of_forward _ c levels hr0 hc0 hf.rows hc
      change c.rows = image.rows at d1
      change c.cols = image.cols at d2
      change 2 ^ levels ∣ image.rows at l3
      change 2 ^ levels ∣ image.cols at l4
      obtain ⟨b1, b2, _⟩ := domain_fits T _ _ levels hf
      have w0 : 0 < image.rows / 2 ^ levels := Nat.div_pos (Nat.le_of_dvd hr0 l3) (by positivity)
      have v0 : 0 < image.cols / 2 ^ levels := Nat.div_pos (Nat.le_of_dvd hc0 l4) (by positivity)
      rw [domainSide_small T hT _ _ hlev, domainSide_small T hT _ _ hlev, ok_bind, ok_bind, machine_read T _ depth w0 v0 b1 b2, d1, d2]
      congr 1
      funext extracted
      rw [domainCapacity_eq T _ _ b1 b2]
      cases hcap : Sia.getDomainCapacity (image.rows / 2 ^ levels) (image.cols / 2 ^ levels) with
      | error e => rfl
      | ok cap =>
        rw [ok_bind, ok_bind]
        have hcapv : cap * 8 < 2 ^ T.bits := by
          unfold Sia.getDomainCapacity getCapacity at hcap
          dsimp only at hcap
          split at hcap
          · cases hcap
          · cases hcap
            have := Nat.div_mul_le_self (image.rows / 2 ^ levels * (image.cols / 2 ^ levels)) 8
            omega
        rw [machine_decode T hT L extracted cap hcapv]
    · intro r
      constructor
      · intro h
        unfold Target.extract at h
        rw [bind_ok_iff] at h
        obtain ⟨c, hc, _⟩ := h
        have := levels_of_forward _ c levels hr0 hc0 hf.rows ((hfw c).1 hc)
        omega
      · intro h
        unfold Sia.extract at h
        rw [bind_ok_iff] at h
        obtain ⟨c, hc, _⟩ := h
        have := levels_of_forward _ c levels hr0 hc0 hf.rows hc
        omega

theorem featureBits_eq (T : Target) (step f : F64) (q : Int) (h1 : i64Min < q) (h2 : q ≤ i64Max) :
    T.featureBits step f q = Sia.featureBits step f q := by
  unfold Target.featureBits Sia.featureBits Target.signed
  have h3 : i64Min = -2 ^ 63 := rfl
  have h4 : i64Max = 2 ^ 63 - 1 := rfl
  rw [if_pos (by norm_num; omega), if_neg (by omega), ok_bind]
  rfl

/-- In a release build the smallest cell number wraps around, which leaves the three bits as they should be. -/
theorem featureBits_min (T : Target) (step f : F64) :
    Sia.featureBits step f i64Min = .error .arithOverflow ∧
    (T.checked = true → T.featureBits step f i64Min = .error .arithOverflow) ∧
    (T.checked = false → T.featureBits step f i64Min = .ok
      [true, true, FloatOps.ge f (FloatOps.mul step (FloatOps.add (FloatOps.ofInt i64Min) (FloatOps.lit (1 / 2))))]) := by
  refine ⟨if_pos rfl, ?_, ?_⟩
  · intro h
    unfold Target.featureBits Target.signed
    rw [if_neg (by decide), if_pos h]
    rfl
  · intro h
    unfold Target.featureBits Target.signed
    rw [if_neg (by decide), h, if_neg (by decide), ok_bind]
    have : twoBitsFromInteger (modFour (wrapSigned 64 (i64Min - 1))) = (true, true) := by decide
    rw [this]
    rfl

theorem quantize_range (step f : F64) : i64Min ≤ quantizeOne step f ∧ quantizeOne step f ≤ i64Max := by
  unfold quantizeOne
  have key : ∀ x : F64, i64Min ≤ FloatOps.truncSat i64Min i64Max x ∧ FloatOps.truncSat i64Min i64Max x ≤ i64Max := by
    have h3 : i64Min = -2 ^ 63 := rfl
    have h4 : i64Max = 2 ^ 63 - 1 := rfl
    intro x
    show i64Min ≤ F64.truncSat i64Min i64Max x ∧ F64.truncSat i64Min i64Max x ≤ i64Max
    cases x with
    | nan => exact ⟨by decide, by decide⟩
    | inf s => cases s <;> exact ⟨by decide, by decide⟩
    | fin x =>
      show i64Min ≤ clampZ i64Min i64Max (truncZ x) ∧ clampZ i64Min i64Max (truncZ x) ≤ i64Max
      unfold clampZ
      split_ifs <;> omega
  exact key _

theorem machine_quantization (T : Target) (features : List F64) (step : F64) (h : NoneAtMinimum features step) :
    T.threeBitQuantization features step = Sia.threeBitQuantization features step := by
  unfold Target.threeBitQuantization Sia.threeBitQuantization
  dsimp only
  have : ∀ fs : List F64, (∀ f ∈ fs, quantizeOne step f ≠ i64Min) →
      ((fs.zip (quantize fs step)).mapM fun (x : F64 × Int) => T.featureBits step x.1 x.2) =
      ((fs.zip (quantize fs step)).mapM fun (x : F64 × Int) => Sia.featureBits step x.1 x.2) := by
    intro fs
    induction fs with
    | nil => intro _; rfl
    | cons f fs ih =>
      intro hfs
      have e : quantize (f :: fs) step = quantizeOne step f :: quantize fs step := rfl
      rw [e, List.zip_cons_cons, List.mapM_cons, List.mapM_cons, ih (fun x hx => hfs x (List.mem_cons_of_mem _ hx))]
      obtain ⟨q1, q2⟩ := quantize_range step f
      rw [featureBits_eq T step f _ (lt_of_le_of_ne q1 (Ne.symm (hfs f List.mem_cons_self))) q2]
  rw [this features h]

theorem machine_dequantization (T : Target) (features : List F64) (given : List Bool) (step : F64) (h : NoneAtMinimum features step) :
    T.threeBitDequantization features given step = Sia.threeBitDequantization features given step := by
  unfold Target.threeBitDequantization Sia.threeBitDequantization
  rw [machine_quantization T features step h]

theorem machine_order (T : Target) (a : Nat) (h0 : 0 < a) (h : 2 * a ≤ 2 ^ T.bits) :
    T.order a = .ok (1 + 2 * (a - 1)) ∧ Sia.orderByFeaturesAmount a = .ok (1 + 2 * (a - 1)) := by
  unfold Target.order Sia.orderByFeaturesAmount
  have e1 : ((a : Int) - 1) = ((a - 1 : ℕ) : ℤ) := by omega
  have e2 : (2 * ((a - 1 : ℕ) : ℤ)) = ((2 * (a - 1) : ℕ) : ℤ) := by push_cast; rfl
  have e3 : (1 + ((2 * (a - 1) : ℕ) : ℤ)) = ((1 + 2 * (a - 1) : ℕ) : ℤ) := by push_cast; rfl
  rw [e1, usize_ok T _ (by omega), ok_bind, e2, usize_ok T _ (by omega), ok_bind, e3, usize_ok T _ (by omega), if_neg (by omega)]
  exact ⟨rfl, rfl⟩

/-- C75: no build returns features when none are asked for. -/
theorem machine_no_features (T : Target) (hT : T.Valid) (D : Deps F64) (image : Mat UInt8) :
    ∃ e, T.channelFeatures D image 0 = .error e := by
  unfold Target.channelFeatures
  have hmain : (∃ e, T.order 0 = .error e) ∨ ∃ order e, T.order 0 = .ok order ∧ T.momentIndices order = .error e := by
    obtain ⟨checked, bits⟩ := T
    cases checked
    · right
      rcases hT with h | h <;> (dsimp only at h; subst h)
      · refine ⟨2 ^ 32 - 1, .capacityOverflow, by decide, ?_⟩
        unfold Target.momentIndices
        rw [if_pos (by norm_num)]
      · refine ⟨2 ^ 64 - 1, .capacityOverflow, by decide, ?_⟩
        unfold Target.momentIndices
        rw [if_pos (by norm_num)]
    · left
      refine ⟨.arithOverflow, ?_⟩
      unfold Target.order Target.usize Target.unsigned
      rw [if_neg (by simp)]
      rfl
  rcases hmain with ⟨e, h⟩ | ⟨order, e, h, h'⟩
  · rw [h]; exact ⟨e, rfl⟩
  · rw [h, ok_bind, h']; exact ⟨e, rfl⟩

theorem machine_features (T : Target) (hT : T.Valid) (D : Deps F64) (image : Mat UInt8) (a : Nat) (ha : a < 2 ^ (T.bits - 4))
    (hs : image.rows * image.rows < 2 ^ T.bits) :
    SameResult (T.channelFeatures D image a) (Sia.channelFeatures D image a) := by
  rcases Nat.eq_zero_or_pos a with rfl | h0
  · obtain ⟨e, he⟩ := machine_no_features T hT D image
    intro r
    rw [he]
    refine ⟨fun h => (by cases h), fun h => ?_⟩
    unfold Sia.channelFeatures Sia.orderByFeaturesAmount at h
    cases h
  · have hp : 2 ^ T.bits = 16 * 2 ^ (T.bits - 4) := by
      have : T.bits = 4 + (T.bits - 4) := by rcases hT with h | h <;> omega
      conv_lhs => rw [this, pow_add]
      norm_num
    obtain ⟨h1, h2⟩ := machine_order T a h0 (by omega)
    unfold Target.channelFeatures Sia.channelFeatures
    rw [h1, h2, ok_bind, ok_bind]
    have h3 : T.momentIndices (1 + 2 * (a - 1)) = .ok (Sia.momentIndices (1 + 2 * (a - 1))) := by
      unfold Target.momentIndices
      have e1 : (1 + 2 * (a - 1)) % 2 = 1 := by omega
      have e2 : (1 + 2 * (a - 1) + 2 - 1) / 2 = a := by omega
      dsimp only
      rw [e1, if_pos rfl, e2, if_neg]
      rw [not_le]
      have hp' : 2 ^ (T.bits - 1) = 8 * 2 ^ (T.bits - 4) := by
        have : T.bits - 1 = 3 + (T.bits - 4) := by rcases hT with h | h <;> omega
        rw [this, pow_add]
        norm_num
      have : T.bits / 8 ≤ 8 := by rcases hT with h | h <;> rw [h]; norm_num
      calc a * (T.bits / 8) ≤ a * 8 := Nat.mul_le_mul_left _ this
        _ < 2 ^ (T.bits - 1) := by omega
    rw [h3, ok_bind]
    apply SameResult.of_eq
    congr 1
    funext index
    have e : ((image.rows : Int) * image.rows) = ((image.rows * image.rows : ℕ) : ℤ) := by push_cast; rfl
    rw [e, usize_ok T _ hs, ok_bind, if_neg (by simp)]
    rfl

theorem machine_equalized (T : Target) (hT : T.Valid) (D : Deps F64) (c : GrayImage) (a : Nat) (ha : a < 2 ^ (T.bits - 4))
    (hf : FitsSquare T c.width c.height) : SameResult (T.equalizedFeatures D c a) (Sia.equalizedFeatures D c a) := by
  unfold Target.equalizedFeatures Sia.equalizedFeatures
  refine SameResult.bind (.refl _) fun m hm => ?_
  unfold fromShapeVec at hm
  split_ifs at hm
  cases hm
  exact machine_features T hT D _ a ha hf.square

/-- C75: `watermark_channel` in every build and on every target returns what the model says, if the channel fits and no feature lies at
`-2^63` steps or below. -/
theorem machine_watermark_channel (T : Target) (hT : T.Valid) (D : Deps F64) (c : GrayImage) (depth step : F64) (a levels : Nat)
    (hf : FitsSquare T c.width c.height) (ha : a < 2 ^ (T.bits - 4)) (hl : levels < 2 ^ T.bits)
    (hmin : ∀ fs, Sia.equalizedFeatures D c a = .ok fs → NoneAtMinimum fs step) :
    SameResult (T.watermarkChannel D c depth step a levels) (Sia.watermarkChannel D c depth step a levels) := by
  unfold Target.watermarkChannel Sia.watermarkChannel
  refine SameResult.bind (.refl _) fun m hm => ?_
  refine SameResult.bind (machine_equalized T hT D c a ha hf) fun fs hfs => ?_
  rw [machine_quantization T fs step (hmin fs hfs)]
  refine SameResult.bind (.refl _) fun qp _ => ?_
  refine SameResult.bind (.refl _) fun sig _ => ?_
  refine SameResult.bind (.refl _) fun data _ => ?_
  refine SameResult.bind (machine_embed T hT D.ldpc m data depth levels ?_ hl) fun out _ => .refl _
  unfold fromShapeVec at hm
  split_ifs at hm
  cases hm
  exact hf.toFits

/-- C75: `authenticate_channel` in every build and on every target returns what the model says, if the channel fits and no feature lies
at `-2^63` steps or below. -/
theorem machine_authenticate_channel (T : Target) (hT : T.Valid) (D : Deps F64) (c : GrayImage) (depth step : F64) (a levels : Nat)
    (hf : FitsSquare T c.width c.height) (ha : a < 2 ^ (T.bits - 4)) (hl : levels < 2 ^ T.bits)
    (hmin : ∀ fs, Sia.equalizedFeatures D c a = .ok fs → NoneAtMinimum fs step) :
    SameResult (T.authenticateChannel D c depth step a levels) (Sia.authenticateChannel D c depth step a levels) := by
  unfold Target.authenticateChannel Sia.authenticateChannel
  refine SameResult.bind (.refl _) fun m hm => ?_
  refine SameResult.bind (machine_equalized T hT D c a ha hf) fun fs hfs => ?_
  refine SameResult.bind (machine_extract T hT D.ldpc m depth levels ?_ hl) fun data _ => ?_
  · unfold fromShapeVec at hm
    split_ifs at hm
    cases hm
    exact hf.toFits
  refine SameResult.bind (.refl _) fun w _ => ?_
  rw [machine_dequantization T fs _ step (hmin fs hfs)]
  exact .refl _

theorem quantize_modulus (f step : F64) (hf : f = .nan ∨ FloatOps.ge f (.fin 0) = true) (hs : FloatOps.ge step (.fin 0) = true) :
    quantizeOne step f ≠ i64Min := by
  unfold quantizeOne
  have h0 : ∀ x : F64, (x = .nan ∨ FloatOps.ge x (.fin 0) = true) → FloatOps.truncSat i64Min i64Max (FloatOps.floor x) ≠ i64Min := by
    have h3 : i64Min = -2 ^ 63 := rfl
    have h4 : i64Max = 2 ^ 63 - 1 := rfl
    intro x hx
    show F64.truncSat i64Min i64Max (F64.floor x) ≠ i64Min
    cases x with
    | nan => decide
    | inf s =>
      cases s
      · decide
      · rcases hx with h | h
        · cases h
        · cases h
    | fin x =>
      have hx' : 0 ≤ x := by
        rcases hx with h | h
        · cases h
        · exact of_decide_eq_true h
      show clampZ i64Min i64Max (truncZ ((⌊x⌋ : ℤ) : ℚ)) ≠ i64Min
      have : 0 ≤ ⌊x⌋ := Int.floor_nonneg.2 hx'
      unfold truncZ
      rw [if_pos (by exact_mod_cast this), Int.floor_intCast]
      unfold clampZ
      split_ifs <;> omega
  apply h0
  show F64.div f step = .nan ∨ F64.ge (F64.div f step) (.fin 0) = true
  change f = .nan ∨ F64.ge f (.fin 0) = true at hf
  change F64.ge step (.fin 0) = true at hs
  have hof : ∀ q : ℚ, 0 ≤ q → F64.ge (F64.ofRat q) (.fin 0) = true := by
    intro q hq
    unfold F64.ofRat
    dsimp only
    split_ifs
    · have : decide (q < 0) = false := decide_eq_false (by linarith)
      rw [this]; rfl
    · exact decide_eq_true (rne64_nonneg q hq)
  cases f with
  | nan => left; cases step <;> rfl
  | inf s =>
    have hsf : s = false := by rcases hf with h | h <;> cases s <;> first | rfl | cases h
    subst hsf
    cases step with
    | nan => cases hs
    | inf t => left; rfl
    | fin y =>
      right
      have hy : 0 ≤ y := of_decide_eq_true hs
      have : decide (y < 0) = false := decide_eq_false (by linarith)
      show F64.ge (F64.inf (false != decide (y < 0))) (.fin 0) = true
      rw [this]; rfl
  | fin x =>
    have hx : 0 ≤ x := by
      rcases hf with h | h
      · cases h
      · exact of_decide_eq_true h
    cases step with
    | nan => cases hs
    | inf t => right; show decide ((0 : ℚ) ≤ 0) = true; exact decide_eq_true le_rfl
    | fin y =>
      have hy : 0 ≤ y := of_decide_eq_true hs
      show (if y = 0 then _ else _) = F64.nan ∨ F64.ge (if y = 0 then _ else _) (.fin 0) = true
      by_cases h0 : y = 0
      · rw [if_pos h0]
        by_cases h1 : x = 0
        · left; rw [if_pos h1]
        · right
          rw [if_neg h1]
          have : decide (x < 0) = false := decide_eq_false (by linarith)
          rw [this]; rfl
      · right
        rw [if_neg h0]
        exact hof _ (div_nonneg hx hy)

theorem features_noneAtMinimum (D : Deps F64) (hD : D.Moduli) (c : GrayImage) (a : Nat) (step : F64)
    (hs : FloatOps.ge step (.fin 0) = true) (fs : List F64) (h : Sia.equalizedFeatures D c a = .ok fs) : NoneAtMinimum fs step := by
  unfold Sia.equalizedFeatures Sia.channelFeatures at h
  simp only [bind_ok_iff] at h
  obtain ⟨m, _, order, _, h⟩ := h
  intro f hf
  have : ∀ (l : List Nat) fs, (l.mapM fun index => if m.rows * m.rows < m.rows * m.cols then (.error .unwrapNone : Res F64)
      else .ok (D.momentAbs order index m)) = .ok fs → ∀ f ∈ fs, ∃ i, f = D.momentAbs order i m := by
    intro l
    induction l with
    | nil => intro fs h f hf; cases h; cases hf
    | cons i l ih =>
      intro fs h f hf
      rw [List.mapM_cons] at h
      simp only [bind_ok_iff] at h
      obtain ⟨x, hx, xs, hxs, h⟩ := h
      cases h
      rcases List.mem_cons.1 hf with rfl | hf
      · split_ifs at hx
        cases hx
        exact ⟨i, rfl⟩
      · exact ih xs hxs f hf
  obtain ⟨i, rfl⟩ := this _ fs h f hf
  exact quantize_modulus _ _ (hD order i m) hs

/-- C75: for a step that is not negative (and the features being moduli), any two builds of the library — debug or release, 32-bit or
64-bit — return the same from `watermark_channel` and from `authenticate_channel` for every channel that fits, and that is what the
model returns. -/
theorem builds_agree (T T' : Target) (hT : T.Valid) (hT' : T'.Valid) (D : Deps F64) (hD : D.Moduli) (c : GrayImage)
    (depth step : F64) (hs : FloatOps.ge step (.fin 0) = true) (a levels : Nat) (hf : FitsSquare T c.width c.height)
    (hf' : FitsSquare T' c.width c.height) (ha : a < 2 ^ 28) (hl : levels < 2 ^ 32) :
    SameResult (T.watermarkChannel D c depth step a levels) (T'.watermarkChannel D c depth step a levels) ∧
    SameResult (T.authenticateChannel D c depth step a levels) (T'.authenticateChannel D c depth step a levels) ∧
    SameResult (T.watermarkChannel D c depth step a levels) (Sia.watermarkChannel D c depth step a levels) ∧
    SameResult (T.authenticateChannel D c depth step a levels) (Sia.authenticateChannel D c depth step a levels) := by
  have key : ∀ T : Target, T.Valid → FitsSquare T c.width c.height →
      SameResult (T.watermarkChannel D c depth step a levels) (Sia.watermarkChannel D c depth step a levels) ∧
      SameResult (T.authenticateChannel D c depth step a levels) (Sia.authenticateChannel D c depth step a levels) := by
    intro T hT hf
    have h1 : a < 2 ^ (T.bits - 4) := lt_of_lt_of_le ha (Nat.pow_le_pow_right (by norm_num) (by rcases hT with h | h <;> omega))
    have h2 : levels < 2 ^ T.bits := lt_of_lt_of_le hl (two_pow_le_bits T hT 32 le_rfl)
    have h3 := fun fs h => features_noneAtMinimum D hD c a step hs fs h
    exact ⟨machine_watermark_channel T hT D c depth step a levels hf h1 h2 h3,
      machine_authenticate_channel T hT D c depth step a levels hf h1 h2 h3⟩
  obtain ⟨a1, a2⟩ := key T hT hf
  obtain ⟨b1, b2⟩ := key T' hT' hf'
  exact ⟨a1.trans b1.symm, a2.trans b2.symm, a1, a2⟩

/-- C75: the same for whole images. -/
theorem machine_watermark (T : Target) (hT : T.Valid) (D : Deps F64) (hD : D.Moduli) (image : DynamicImage) (depth step : F64)
    (hs : FloatOps.ge step (.fin 0) = true) (a : Nat) (hf : FitsSquare T image.width image.height) (ha : a < 2 ^ 28) :
    SameResult (T.watermark D image depth step a) (Sia.watermark D image depth step a) := by
  have key : ∀ sample, SameResult (T.watermarkChannel D (image.plane sample) depth step a dwtLevels)
      (Sia.watermarkChannel D (image.plane sample) depth step a dwtLevels) := fun sample =>
    (builds_agree T T hT hT D hD (image.plane sample) depth step hs a dwtLevels hf hf ha (by decide)).2.2.1
  unfold Target.watermark Sia.watermark
  dsimp only
  refine (key _).bind fun red _ => ?_
  cases image.color.hasColor
  · exact .refl _
  · exact (key _).bind fun green _ => (key _).bind fun blue _ => .refl _

/-- C75: where the builds differ: a feature at `-2^63` steps or below makes quantization panic in a debug build; a release build
returns, with the cells of the model. -/
theorem quantization_builds (T : Target) (features : List F64) (step : F64) :
    (T.checked = true → ((∃ r, T.threeBitQuantization features step = .ok r) ↔ NoneAtMinimum features step)) ∧
    (T.checked = false → ∃ bits, T.threeBitQuantization features step = .ok (quantize features step, bits)) := by
  have key : ∀ fs : List F64,
      (T.checked = true → ((∃ r, ((fs.zip (quantize fs step)).mapM fun (x : F64 × Int) => T.featureBits step x.1 x.2) = .ok r) ↔
        ∀ f ∈ fs, quantizeOne step f ≠ i64Min)) ∧
      (T.checked = false → ∃ r, ((fs.zip (quantize fs step)).mapM fun (x : F64 × Int) => T.featureBits step x.1 x.2) = .ok r) := by
    intro fs
    induction fs with
    | nil => exact ⟨fun _ => ⟨fun _ f hf => (by cases hf), fun _ => ⟨[], rfl⟩⟩, fun _ => ⟨[], rfl⟩⟩
    | cons f fs ih =>
      have e : quantize (f :: fs) step = quantizeOne step f :: quantize fs step := rfl
      rw [e, List.zip_cons_cons, List.mapM_cons]
      obtain ⟨q1, q2⟩ := quantize_range step f
      obtain ⟨_, m1, m2⟩ := featureBits_min T step f
      have hok : quantizeOne step f ≠ i64Min → ∃ b, T.featureBits step f (quantizeOne step f) = .ok b := by
        intro h
        rw [featureBits_eq T step f _ (lt_of_le_of_ne q1 (Ne.symm h)) q2]
        unfold Sia.featureBits
        rw [if_neg h]
        exact ⟨_, rfl⟩
      constructor
      · intro hc
        constructor
        · rintro ⟨r, hr⟩
          simp only [bind_ok_iff] at hr
          obtain ⟨b, hb, bs, hbs, _⟩ := hr
          intro x hx
          rcases List.mem_cons.1 hx with rfl | hx
          · intro hmin
            rw [hmin, m1 hc] at hb
            cases hb
          · exact ((ih.1 hc).1 ⟨bs, hbs⟩) x hx
        · intro h
          obtain ⟨b, hb⟩ := hok (h f List.mem_cons_self)
          obtain ⟨bs, hbs⟩ := (ih.1 hc).2 fun x hx => h x (List.mem_cons_of_mem _ hx)
          rw [hb, ok_bind, hbs, ok_bind]
          exact ⟨_, rfl⟩
      · intro hc
        obtain ⟨bs, hbs⟩ := ih.2 hc
        have : ∃ b, T.featureBits step f (quantizeOne step f) = .ok b := by
          by_cases h : quantizeOne step f = i64Min
          · rw [h]; exact ⟨_, m2 hc⟩
          · exact hok h
        obtain ⟨b, hb⟩ := this
        rw [hb, ok_bind, hbs, ok_bind]
        exact ⟨_, rfl⟩
  have hm : T.threeBitQuantization features step =
      (((features.zip (quantize features step)).mapM fun (x : F64 × Int) => T.featureBits step x.1 x.2) >>= fun bits =>
        pure (quantize features step, bits.flatten)) := rfl
  rw [hm]
  constructor
  · intro hc
    rw [← show (∀ f ∈ features, quantizeOne step f ≠ i64Min) = NoneAtMinimum features step from rfl, ← (key features).1 hc]
    constructor
    · rintro ⟨r, hr⟩
      rw [bind_ok_iff] at hr
      obtain ⟨b, hb, _⟩ := hr
      exact ⟨b, hb⟩
    · rintro ⟨r, hr⟩
      rw [hr]
      exact ⟨_, rfl⟩
  · intro hc
    obtain ⟨r, hr⟩ := (key features).2 hc
    rw [hr]
    exact ⟨_, rfl⟩

/-- C75: the generator of pseudo-random numbers: the seed after the largest `usize` is a panic in a debug build; in a release build the
seed becomes 0 and so does the number. For every other seed the builds agree with the model. -/
theorem random_builds (T : Target) (s : Nat) :
    (T.Valid → s + 1 < 2 ^ T.bits →
      T.generateUnit s = (PseudoRandom.mk s).generateUnit.map fun r => (r.1, r.2.seed)) ∧
    (s + 1 = 2 ^ T.bits → T.checked = true → T.generateUnit s = .error .arithOverflow) ∧
    (s + 1 = 2 ^ T.bits → T.checked = false → T.generateUnit s = .ok (.fin 0, 0)) := by
  have e : ((s : Int) + 1) = ((s + 1 : ℕ) : ℤ) := by push_cast; rfl
  refine ⟨fun hT h => ?_, fun h hc => ?_, fun h hc => ?_⟩
  · unfold Target.generateUnit PseudoRandom.generateUnit
    have h64 : s + 1 < 2 ^ 64 :=
      lt_of_lt_of_le h (Nat.pow_le_pow_right (by norm_num) (by rcases hT with h | h <;> omega))
    rw [e, usize_ok T _ h, if_pos h64, ok_bind]
    rfl
  · unfold Target.generateUnit Target.usize Target.unsigned
    have h' : ((s + 1 : ℕ) : ℤ) = 2 ^ T.bits := by exact_mod_cast h
    rw [e, h', if_neg (by simp), if_pos hc]
    rfl
  · unfold Target.generateUnit Target.usize Target.unsigned
    have h' : ((s + 1 : ℕ) : ℤ) = 2 ^ T.bits := by exact_mod_cast h
    rw [e, h', if_neg (by simp), if_neg (by simp [hc]), ok_bind, Int.emod_self]
    decide +kernel

theorem machine_wide_forward (T : Target) (hT : T.bits = 64) (m : Mat F64) (L : Nat)
    (h : (2 ^ 31 ≤ m.rows ∧ m.rows < 2 ^ 32) ∨ (2 ^ 31 ≤ m.cols ∧ m.cols < 2 ^ 32)) : ∃ e, T.dwt2d m L false = .error e := by
  have hside : ∀ n : Nat, T.sideOf n 0 = .ok (wrapSigned 32 n) := by
    intro n
    unfold Target.sideOf
    rw [pow2_small T 0 (by norm_num), ok_bind]
    show Except.ok (Int.tdiv _ (2 ^ 0)) = _
    rw [pow_zero, Int.tdiv_one]
  have hneg : ∀ n : Nat, 2 ^ 31 ≤ n → n < 2 ^ 32 → n < T.asUsize (wrapSigned 32 n) := by
    intro n h1 h2
    have e1 : wrapSigned 32 n = (n : ℤ) - 2 ^ 32 := by
      unfold wrapSigned Int.bmod
      norm_num at h1 h2 ⊢
      omega
    unfold Target.asUsize
    rw [e1, hT]
    norm_num at h1 h2 ⊢
    omega
  unfold Target.dwt2d
  cases T.usize ((L : Int) - 1) with
  | error e => exact ⟨e, rfl⟩
  | ok last =>
    rw [ok_bind]
    show ∃ e, (List.range (last + 1)).foldlM (T.dwtIteration false) m = .error e
    have hit : T.dwtIteration false m 0 = .error .indexOutOfRange := by
      unfold Target.dwtIteration
      rw [hside, hside, ok_bind, ok_bind]
      dsimp only
      rw [if_pos]
      · rfl
      · rcases h with ⟨h1, h2⟩ | ⟨h1, h2⟩
        · exact .inl (hneg _ h1 h2)
        · exact .inr (hneg _ h1 h2)
    rw [List.range_succ_eq_map, List.foldlM_cons, hit]
    exact ⟨_, rfl⟩

/-- C75: the bound on the sides is needed: on a 64-bit target every build panics on an image with a side from `2^31` to `2^32 - 1`,
whatever its content, the payload and the number of levels. -/
theorem machine_wide (T : Target) (hT : T.bits = 64) (L : Ldpc) (image : Mat UInt8) (bytes : List UInt8) (depth : F64) (levels : Nat)
    (h : (2 ^ 31 ≤ image.rows ∧ image.rows < 2 ^ 32) ∨ (2 ^ 31 ≤ image.cols ∧ image.cols < 2 ^ 32)) :
    (∃ e, T.embed L image bytes depth levels = .error e) ∧ ∃ e, T.extract L image depth levels = .error e := by
  obtain ⟨e, he⟩ := machine_wide_forward T hT (image.map pixelToFloat) levels h
  unfold Target.embed Target.extract
  rw [he]
  exact ⟨⟨e, rfl⟩, ⟨e, rfl⟩⟩

/-- The four kinds of builds, and both outcomes of a feature far below zero. -/
example : (⟨true, 32⟩ : Target).Valid ∧ (⟨false, 64⟩ : Target).Valid ∧
    ¬ NoneAtMinimum [.fin 3, .fin (-2 ^ 70)] (.fin 1) ∧ NoneAtMinimum [.fin 3, .fin (-2 ^ 60)] (.fin 1) := by
  refine ⟨.inl rfl, .inr rfl, ?_, ?_⟩
  · intro h
    exact h (.fin (-2 ^ 70)) (by simp) (by decide +kernel)
  · intro f hf
    simp only [List.mem_cons, List.not_mem_nil, or_false] at hf
    rcases hf with rfl | rfl <;> decide +kernel

/-- C75: the inverse transform of more than 32 levels aborts in every build, on every matrix: an overflow of the power in a debug
build, a division by zero in a release build. -/
theorem machine_deep_inverse (T : Target) (m : Mat F64) (L : Nat) (h1 : 33 ≤ L) (h2 : L ≤ 2 ^ 32) (h3 : L ≤ 2 ^ T.bits) :
    T.dwt2d m L true = .error (if T.checked then .arithOverflow else .divisionByZero) := by
  have hu : T.usize ((L : Int) - 1) = .ok (L - 1) := by
    unfold Target.usize Target.unsigned
    have e : ((L : Int) - 1) = ((L - 1 : ℕ) : Int) := by omega
    have hlt : ((L - 1 : ℕ) : Int) < 2 ^ T.bits := by
      have : L - 1 < 2 ^ T.bits := by omega
      exact_mod_cast this
    rw [e, if_pos ⟨by omega, hlt⟩]
    simp
  obtain ⟨k, rfl⟩ : ∃ k, L = k + 33 := ⟨L - 33, by omega⟩
  have hs : ∀ n, T.sideOf n (k + 32) = .error (if T.checked then .arithOverflow else .divisionByZero) := by
    intro n
    unfold Target.sideOf Target.pow2 Target.signed
    rw [Nat.mod_eq_of_lt (by omega : k + 32 < 2 ^ 32)]
    have hbig : ¬ (-2 ^ (32 - 1) ≤ (2 : ℤ) ^ (k + 32) ∧ (2 : ℤ) ^ (k + 32) < 2 ^ (32 - 1)) := by
      rintro ⟨_, h⟩
      have : (2 : ℤ) ^ 31 ≤ 2 ^ (k + 32) := pow_le_pow_right₀ (by norm_num) (by omega)
      have h' : (2 : ℤ) ^ (k + 32) < 2 ^ 31 := h
      omega
    rw [if_neg hbig]
    cases T.checked with
    | true => rfl
    | false =>
      have hz : wrapSigned 32 ((2 : ℤ) ^ (k + 32)) = 0 := by
        unfold wrapSigned
        rw [pow_add]
        exact Int.bmod_eq_zero_of_dvd ⟨2 ^ k, by push_cast; ring⟩
      rw [hz]
      rfl
  unfold Target.dwt2d
  rw [hu, ok_bind]
  have hl : k + 33 - 1 + 1 = (k + 32) + 1 := by omega
  rw [hl, List.range_succ]
  simp only [if_true, List.reverse_append, List.reverse_singleton, List.singleton_append, List.foldlM_cons]
  unfold Target.dwtIteration
  rw [hs]
  rfl

end Sia
