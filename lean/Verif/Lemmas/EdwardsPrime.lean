import Mathlib.NumberTheory.LucasPrimality
import Mathlib.Tactic.NormNum.Prime
import Mathlib.Data.Nat.Prime.Basic
import Mathlib.Data.ZMod.Basic

/-! `2^255 - 19` is a prime number (C80): certificates of Pratt, checked by the kernel. -/
namespace Sia.Edwards

/-- `b^e mod m` by squaring; `k` bounds the number of binary digits of `e`. -/
def powMod : Nat → Nat → Nat → Nat → Nat
  | 0, _, _, m => 1 % m
  | k + 1, b, e, m => if e = 0 then 1 % m else
    if e % 2 = 1 then b * powMod k (b * b % m) (e / 2) m % m else powMod k (b * b % m) (e / 2) m

theorem powMod_eq (m k : Nat) : ∀ b e, e < 2 ^ k → powMod k b e m = b ^ e % m := by
  induction k with
  | zero =>
    intro b e he
    have : e = 0 := by simpa using he
    subst this
    rfl
  | succ k ih =>
    intro b e he
    unfold powMod
    have h2 : e / 2 < 2 ^ k := by rw [Nat.div_lt_iff_lt_mul (by norm_num)]; rw [pow_succ] at he; exact he
    have hsq : (b * b % m) ^ (e / 2) % m = b ^ (2 * (e / 2)) % m := by
      rw [← Nat.pow_mod, pow_mul, sq]
    split_ifs with h0 h1
    · subst h0; rfl
    · rw [ih _ _ h2, hsq]
      conv_rhs => rw [show e = 2 * (e / 2) + 1 by omega, pow_succ]
      rw [mul_comm (b ^ _) b, Nat.mul_mod b (b ^ _)]
      rw [Nat.mul_mod b (b ^ _ % m), Nat.mod_mod]
    · rw [ih _ _ h2, hsq]
      conv_rhs => rw [show e = 2 * (e / 2) by omega]

/-- Pratt's criterion. -/
theorem pratt (n a : Nat) (fs : List Nat) (hp : ∀ q ∈ fs, q.Prime) (hn : 1 < n) (hlt : n < 2 ^ 256) (hprod : fs.prod = n - 1)
    (h1 : powMod 256 a (n - 1) n = 1) (hq : ∀ q ∈ fs, powMod 256 a ((n - 1) / q) n ≠ 1) : n.Prime := by
  have key : ∀ e, ((a : ZMod n) ^ e = 1 ↔ a ^ e % n = 1) := by
    intro e
    have : (a : ZMod n) ^ e = ((a ^ e : ℕ) : ZMod n) := by push_cast; rfl
    rw [this, show (1 : ZMod n) = ((1 : ℕ) : ZMod n) by simp, ZMod.natCast_eq_natCast_iff]
    show a ^ e % n = 1 % n ↔ _
    rw [Nat.mod_eq_of_lt hn]
  refine lucas_primality n (a : ZMod n) ?_ ?_
  · rw [key, ← powMod_eq n 256 _ _ (by omega)]; exact h1
  · intro q hqp hqd
    rw [← hprod] at hqd
    obtain ⟨r, hr, hqr⟩ := (Nat.prime_iff.mp hqp).dvd_prod_iff.mp hqd
    have : q = r := (Nat.prime_dvd_prime_iff_eq hqp (hp r hr)).mp hqr
    subst this
    rw [Ne, key, ← powMod_eq n 256 _ _ (lt_of_le_of_lt (Nat.div_le_self _ _) (by omega))]
    exact hq q hr

theorem prime_1 : Nat.Prime 1923133 := by
  refine pratt _ 2 [2, 2, 3, 43, 3727] ?_ (by norm_num) (by norm_num) (by decide +kernel) (by decide +kernel) (by decide +kernel)
  intro q hq
  simp only [List.mem_cons, List.not_mem_nil, or_false] at hq
  rcases hq with rfl | rfl | rfl | rfl | rfl
  · exact by norm_num
  · exact by norm_num
  · exact by norm_num
  · exact by norm_num
  · exact by norm_num

theorem prime_2 : Nat.Prime 31757755568855353 := by
  refine pratt _ 10 [2, 2, 2, 3, 31, 107, 223, 4153, 430751] ?_ (by norm_num) (by norm_num) (by decide +kernel) (by decide +kernel) (by decide +kernel)
  intro q hq
  simp only [List.mem_cons, List.not_mem_nil, or_false] at hq
  rcases hq with rfl | rfl | rfl | rfl | rfl | rfl | rfl | rfl | rfl
  · exact by norm_num
  · exact by norm_num
  · exact by norm_num
  · exact by norm_num
  · exact by norm_num
  · exact by norm_num
  · exact by norm_num
  · exact by norm_num
  · exact by norm_num

theorem prime_3 : Nat.Prime 2773320623 := by
  refine pratt _ 5 [2, 2437, 569003] ?_ (by norm_num) (by norm_num) (by decide +kernel) (by decide +kernel) (by decide +kernel)
  intro q hq
  simp only [List.mem_cons, List.not_mem_nil, or_false] at hq
  rcases hq with rfl | rfl | rfl
  · exact by norm_num
  · exact by norm_num
  · exact by norm_num

theorem prime_4 : Nat.Prime 72106336199 := by
  refine pratt _ 7 [2, 13, 2773320623] ?_ (by norm_num) (by norm_num) (by decide +kernel) (by decide +kernel) (by decide +kernel)
  intro q hq
  simp only [List.mem_cons, List.not_mem_nil, or_false] at hq
  rcases hq with rfl | rfl | rfl
  · exact by norm_num
  · exact by norm_num
  · exact prime_3

theorem prime_5 : Nat.Prime 8574133 := by
  refine pratt _ 2 [2, 2, 3, 7, 103, 991] ?_ (by norm_num) (by norm_num) (by decide +kernel) (by decide +kernel) (by decide +kernel)
  intro q hq
  simp only [List.mem_cons, List.not_mem_nil, or_false] at hq
  rcases hq with rfl | rfl | rfl | rfl | rfl | rfl
  · exact by norm_num
  · exact by norm_num
  · exact by norm_num
  · exact by norm_num
  · exact by norm_num
  · exact by norm_num

theorem prime_6 : Nat.Prime 1919519569386763 := by
  refine pratt _ 2 [2, 3, 7, 19, 47, 47, 127, 8574133] ?_ (by norm_num) (by norm_num) (by decide +kernel) (by decide +kernel) (by decide +kernel)
  intro q hq
  simp only [List.mem_cons, List.not_mem_nil, or_false] at hq
  rcases hq with rfl | rfl | rfl | rfl | rfl | rfl | rfl | rfl
  · exact by norm_num
  · exact by norm_num
  · exact by norm_num
  · exact by norm_num
  · exact by norm_num
  · exact by norm_num
  · exact by norm_num
  · exact prime_5

theorem prime_7 : Nat.Prime 75445702479781427272750846543864801 := by
  refine pratt _ 7 [2, 2, 2, 2, 2, 3, 3, 5, 5, 75707, 72106336199, 1919519569386763] ?_ (by norm_num) (by norm_num) (by decide +kernel) (by decide +kernel) (by decide +kernel)
  intro q hq
  simp only [List.mem_cons, List.not_mem_nil, or_false] at hq
  rcases hq with rfl | rfl | rfl | rfl | rfl | rfl | rfl | rfl | rfl | rfl | rfl | rfl
  · exact by norm_num
  · exact by norm_num
  · exact by norm_num
  · exact by norm_num
  · exact by norm_num
  · exact by norm_num
  · exact by norm_num
  · exact by norm_num
  · exact by norm_num
  · exact by norm_num
  · exact prime_4
  · exact prime_6

theorem prime_8 : Nat.Prime 74058212732561358302231226437062788676166966415465897661863160754340907 := by
  refine pratt _ 2 [2, 3, 353, 57467, 132049, 1923133, 31757755568855353, 75445702479781427272750846543864801] ?_ (by norm_num) (by norm_num) (by decide +kernel) (by decide +kernel) (by decide +kernel)
  intro q hq
  simp only [List.mem_cons, List.not_mem_nil, or_false] at hq
  rcases hq with rfl | rfl | rfl | rfl | rfl | rfl | rfl | rfl
  · exact by norm_num
  · exact by norm_num
  · exact by norm_num
  · exact by norm_num
  · exact by norm_num
  · exact prime_1
  · exact prime_2
  · exact prime_7

theorem prime_p : Nat.Prime (2 ^ 255 - 19) := by
  refine pratt _ 2 [2, 2, 3, 65147, 74058212732561358302231226437062788676166966415465897661863160754340907] ?_ (by norm_num) (by norm_num) (by decide +kernel) (by decide +kernel) (by decide +kernel)
  intro q hq
  simp only [List.mem_cons, List.not_mem_nil, or_false] at hq
  rcases hq with rfl | rfl | rfl | rfl | rfl
  · exact by norm_num
  · exact by norm_num
  · exact by norm_num
  · exact by norm_num
  · exact prime_8

end Sia.Edwards
