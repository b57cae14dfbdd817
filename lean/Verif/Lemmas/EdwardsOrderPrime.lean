import Verif.Lemmas.EdwardsPrime

/-! The order of the base point of Ed25519 is a prime number (C80): certificates of Pratt, checked by the kernel. -/
namespace Sia.Edwards

theorem order_prime_1 : Nat.Prime 14741173 := by
  refine pratt _ 2 [2, 2, 3, 3, 409477] ?_ (by norm_num) (by norm_num)
    (by decide +kernel) (by decide +kernel) (by decide +kernel)
  intro q hq
  simp only [List.mem_cons, List.not_mem_nil, or_false] at hq
  rcases hq with rfl | rfl | rfl | rfl | rfl
  · exact by norm_num
  · exact by norm_num
  · exact by norm_num
  · exact by norm_num
  · exact by norm_num

theorem order_prime_2 : Nat.Prime 58964693 := by
  refine pratt _ 2 [2, 2, 14741173] ?_ (by norm_num) (by norm_num)
    (by decide +kernel) (by decide +kernel) (by decide +kernel)
  intro q hq
  simp only [List.mem_cons, List.not_mem_nil, or_false] at hq
  rcases hq with rfl | rfl | rfl
  · exact by norm_num
  · exact by norm_num
  · exact order_prime_1

theorem order_prime_3 : Nat.Prime 3044861653679985063343 := by
  refine pratt _ 5 [2, 3, 11, 30703, 82163, 132667, 137849] ?_ (by norm_num) (by norm_num)
    (by decide +kernel) (by decide +kernel) (by decide +kernel)
  intro q hq
  simp only [List.mem_cons, List.not_mem_nil, or_false] at hq
  rcases hq with rfl | rfl | rfl | rfl | rfl | rfl | rfl
  · exact by norm_num
  · exact by norm_num
  · exact by norm_num
  · exact by norm_num
  · exact by norm_num
  · exact by norm_num
  · exact by norm_num

theorem order_prime_4 : Nat.Prime 198211423230930754013084525763697 := by
  refine pratt _ 5 [2, 2, 2, 2, 3, 23, 58964693, 3044861653679985063343] ?_ (by norm_num) (by norm_num)
    (by decide +kernel) (by decide +kernel) (by decide +kernel)
  intro q hq
  simp only [List.mem_cons, List.not_mem_nil, or_false] at hq
  rcases hq with rfl | rfl | rfl | rfl | rfl | rfl | rfl | rfl
  · exact by norm_num
  · exact by norm_num
  · exact by norm_num
  · exact by norm_num
  · exact by norm_num
  · exact by norm_num
  · exact order_prime_2
  · exact order_prime_3

theorem order_prime_5 : Nat.Prime 292386187 := by
  refine pratt _ 2 [2, 3, 3, 3, 3, 307, 5879] ?_ (by norm_num) (by norm_num)
    (by decide +kernel) (by decide +kernel) (by decide +kernel)
  intro q hq
  simp only [List.mem_cons, List.not_mem_nil, or_false] at hq
  rcases hq with rfl | rfl | rfl | rfl | rfl | rfl | rfl
  · exact by norm_num
  · exact by norm_num
  · exact by norm_num
  · exact by norm_num
  · exact by norm_num
  · exact by norm_num
  · exact by norm_num

theorem order_prime_6 : Nat.Prime 213441916511 := by
  refine pratt _ 13 [2, 5, 73, 292386187] ?_ (by norm_num) (by norm_num)
    (by decide +kernel) (by decide +kernel) (by decide +kernel)
  intro q hq
  simp only [List.mem_cons, List.not_mem_nil, or_false] at hq
  rcases hq with rfl | rfl | rfl | rfl
  · exact by norm_num
  · exact by norm_num
  · exact by norm_num
  · exact order_prime_5

theorem order_prime_7 : Nat.Prime 1224481 := by
  refine pratt _ 13 [2, 2, 2, 2, 2, 3, 5, 2551] ?_ (by norm_num) (by norm_num)
    (by decide +kernel) (by decide +kernel) (by decide +kernel)
  intro q hq
  simp only [List.mem_cons, List.not_mem_nil, or_false] at hq
  rcases hq with rfl | rfl | rfl | rfl | rfl | rfl | rfl | rfl
  · exact by norm_num
  · exact by norm_num
  · exact by norm_num
  · exact by norm_num
  · exact by norm_num
  · exact by norm_num
  · exact by norm_num
  · exact by norm_num

theorem order_prime_8 : Nat.Prime 1257559732178653 := by
  refine pratt _ 2 [2, 2, 3, 7, 23, 531581, 1224481] ?_ (by norm_num) (by norm_num)
    (by decide +kernel) (by decide +kernel) (by decide +kernel)
  intro q hq
  simp only [List.mem_cons, List.not_mem_nil, or_false] at hq
  rcases hq with rfl | rfl | rfl | rfl | rfl | rfl | rfl
  · exact by norm_num
  · exact by norm_num
  · exact by norm_num
  · exact by norm_num
  · exact by norm_num
  · exact by norm_num
  · exact order_prime_7

theorem order_prime_9 : Nat.Prime 4434155615661930479 := by
  refine pratt _ 17 [2, 41, 43, 1257559732178653] ?_ (by norm_num) (by norm_num)
    (by decide +kernel) (by decide +kernel) (by decide +kernel)
  intro q hq
  simp only [List.mem_cons, List.not_mem_nil, or_false] at hq
  rcases hq with rfl | rfl | rfl | rfl
  · exact by norm_num
  · exact by norm_num
  · exact by norm_num
  · exact order_prime_8

theorem order_prime_10 : Nat.Prime 172054593956031949258510691 := by
  refine pratt _ 2 [2, 5, 1361, 2851, 4434155615661930479] ?_ (by norm_num) (by norm_num)
    (by decide +kernel) (by decide +kernel) (by decide +kernel)
  intro q hq
  simp only [List.mem_cons, List.not_mem_nil, or_false] at hq
  rcases hq with rfl | rfl | rfl | rfl | rfl
  · exact by norm_num
  · exact by norm_num
  · exact by norm_num
  · exact by norm_num
  · exact order_prime_9

theorem order_prime_11 : Nat.Prime 19757330305831588566944191468367130476339 := by
  refine pratt _ 2 [2, 269, 213441916511, 172054593956031949258510691] ?_ (by norm_num) (by norm_num)
    (by decide +kernel) (by decide +kernel) (by decide +kernel)
  intro q hq
  simp only [List.mem_cons, List.not_mem_nil, or_false] at hq
  rcases hq with rfl | rfl | rfl | rfl
  · exact by norm_num
  · exact by norm_num
  · exact order_prime_6
  · exact order_prime_10

theorem order_prime_12 : Nat.Prime 276602624281642239937218680557139826668747 := by
  refine pratt _ 2 [2, 7, 19757330305831588566944191468367130476339] ?_ (by norm_num) (by norm_num)
    (by decide +kernel) (by decide +kernel) (by decide +kernel)
  intro q hq
  simp only [List.mem_cons, List.not_mem_nil, or_false] at hq
  rcases hq with rfl | rfl | rfl
  · exact by norm_num
  · exact by norm_num
  · exact order_prime_11

theorem prime_l : Nat.Prime (2 ^ 252 + 27742317777372353535851937790883648493) := by
  refine pratt _ 2 [2, 2, 3, 11, 198211423230930754013084525763697, 276602624281642239937218680557139826668747] ?_ (by norm_num) (by norm_num)
    (by decide +kernel) (by decide +kernel) (by decide +kernel)
  intro q hq
  simp only [List.mem_cons, List.not_mem_nil, or_false] at hq
  rcases hq with rfl | rfl | rfl | rfl | rfl | rfl
  · exact by norm_num
  · exact by norm_num
  · exact by norm_num
  · exact by norm_num
  · exact order_prime_4
  · exact order_prime_12

end Sia.Edwards
