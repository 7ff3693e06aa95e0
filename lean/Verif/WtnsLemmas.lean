import Verif.Wtns
import Mathlib.Data.Nat.Digits.Lemmas
import Mathlib.Tactic.Ring

/-! Lemmas on `Verif.Wtns`. -/

namespace Verif.Wtns

set_option linter.unusedSimpArgs false
set_option linter.unusedVariables false

theorem length_le : ∀ k n, (le k n).length = k
  | 0, _ => rfl
  | k + 1, n => by simp [le, length_le k]

theorem le_add : ∀ k l n, le (k + l) n = le k n ++ le l (n / 256 ^ k)
  | 0, l, n => by simp [le]
  | k + 1, l, n => by
    rw [show k + 1 + l = (k + l) + 1 by omega, le, le_add k l, le, Nat.div_div_eq_div_mul, pow_succ, Nat.mul_comm 256]
    rfl

theorem le_mod : ∀ k n, le k (n % 256 ^ k) = le k n
  | 0, _ => rfl
  | k + 1, n => by
    rw [le, le, pow_succ, Nat.mul_comm, Nat.mod_mul_right_div_self, le_mod k, Nat.mod_mul_right_mod]

theorem le_words (v : Nat) : ∀ n, le (4 * n) v = ((List.range n).map fun j => word j v).flatMap (le 4)
  | 0 => rfl
  | n + 1 => by
    rw [show 4 * (n + 1) = 4 * n + 4 by ring, le_add, le_words v n, List.range_succ]
    simp only [List.map_append, List.map_cons, List.map_nil, List.flatMap_append, List.flatMap_cons, List.flatMap_nil,
      List.append_nil]
    congr 1
    unfold word
    rw [show (2 : Nat) ^ 32 = 256 ^ 4 by norm_num, le_mod]
    congr 2
    rw [show (256 : Nat) = 2 ^ 8 by norm_num, ← pow_mul]
    congr 1; ring

/-! ### Buffers -/

theorem put_end (d : List Nat) (k x : Nat) :
    put (d ++ List.replicate (k + 1) 0) d.length x = d ++ [x % 2 ^ 32] ++ List.replicate k 0 := by
  unfold put
  rw [List.set_append_right _ _ (le_refl _), Nat.sub_self, List.replicate_succ, List.set_cons_zero, List.append_assoc]
  rfl

theorem word_lt (j v : Nat) : word j v % 2 ^ 32 = word j v := Nat.mod_mod _ _

theorem putWords_end (d : List Nat) (v k : Nat) : ∀ n,
    putWords (d ++ List.replicate (n + k) 0) d.length v n = d ++ ((List.range n).map fun j => word j v) ++ List.replicate k 0 := by
  intro n
  induction n generalizing k with
  | zero => simp [putWords]
  | succ n ih =>
    rw [putWords, show n + 1 + k = n + (k + 1) by omega, ih (k + 1)]
    have := put_end (d ++ (List.range n).map fun j => word j v) k (word n v)
    rw [List.length_append, List.length_map, List.length_range] at this
    rw [this, word_lt, List.range_succ]
    simp

theorem putAll_end (n k : Nat) : ∀ (vals d : List Nat),
    putAll n (d ++ List.replicate (vals.length * n + k) 0) d.length vals =
      d ++ (vals.flatMap fun v => (List.range n).map fun j => word j v) ++ List.replicate k 0
  | [], d => by simp [putAll]
  | v :: vs, d => by
    rw [putAll, show (v :: vs).length * n + k = n + (vs.length * n + k) by simp; ring, putWords_end]
    have := putAll_end n k vs (d ++ (List.range n).map fun j => word j v)
    rw [List.length_append, List.length_map, List.length_range] at this
    rw [this]
    simp

theorem foldl_digits (b : Nat) (l : List Nat) : l.reverse.foldl (fun r d => b * r + d) 0 = Nat.ofDigits b l := by
  induction l with
  | nil => simp
  | cons d l ih =>
    rw [List.reverse_cons, List.foldl_append, ih, Nat.ofDigits_cons]
    simp [Nat.add_comm]

theorem hex_small {x : Nat} (h : x < 2 ^ 32) : parse16 ((hex x).take 8) = x ∧ parse16 (((hex x).drop 8).take 8) = 0 := by
  have hl : (hex x).length ≤ 8 := by
    unfold hex
    split
    · simp
    · rename_i h0
      rw [List.length_reverse]
      exact (Nat.digits_length_le_iff (by norm_num) _).2 (by norm_num; exact h)
  rw [List.take_of_length_le hl, List.drop_of_length_le hl]
  refine ⟨?_, rfl⟩
  unfold hex parse16
  split
  · rename_i h0; simp [h0]
  · rw [foldl_digits, Nat.ofDigits_digits]

theorem le8_small {x : Nat} (h : x < 2 ^ 32) : le 8 x = le 4 x ++ le 4 0 := by
  rw [show 8 = 4 + 4 from rfl, le_add, Nat.div_eq_of_lt (by omega)]

/-- The words of the buffer in order. -/
theorem jsWords_eq {n q : Nat} {vals : List Nat} (h1 : 8 + n * 4 < 2 ^ 32) (h2 : n * 4 * vals.length < 2 ^ 32)
    (h3 : vals.length < 2 ^ 32) :
    jsWords n q vals =
      [119 + 116 * 2 ^ 8 + 110 * 2 ^ 16 + 115 * 2 ^ 24, 2, 2, 1, 8 + n * 4, 0, n * 4] ++ ((List.range n).map fun j => word j q) ++
      [vals.length, 2, n * 4 * vals.length, 0] ++ (vals.flatMap fun v => (List.range n).map fun j => word j v) := by
  unfold jsWords
  simp only [hex_small h1, hex_small h2]
  have m : ∀ {x : Nat}, x < 2 ^ 32 → x % 2 ^ 32 = x := fun h => Nat.mod_eq_of_lt h
  generalize hL : vals.length * n = L
  have e0 := put_end [] (L + n + 10) (119 + 116 * 2 ^ 8 + 110 * 2 ^ 16 + 115 * 2 ^ 24)
  rw [List.nil_append, m (by norm_num)] at e0
  rw [show L + n + 11 = L + n + 10 + 1 by omega]
  change putAll n (put (put (put (put (putWords (put (put (put (put (put (put (put (List.replicate (L + n + 10 + 1) 0) ([] : List Nat).length _) 1 2) 2 2) 3 1) 4 _) 5 _) 6 _) 7 q n) (7 + n) _) (7 + n + 1) 2) (7 + n + 2) _) (7 + n + 3) _) (7 + n + 4) vals = _
  rw [e0, List.nil_append]
  generalize 119 + 116 * 2 ^ 8 + 110 * 2 ^ 16 + 115 * 2 ^ 24 = mg
  have step : ∀ (d : List Nat) (i k x : Nat), d.length = i → x < 2 ^ 32 →
      put (d ++ List.replicate (k + 1) 0) i x = (d ++ [x]) ++ List.replicate k 0 := by
    intro d i k x hi hx
    subst hi
    rw [put_end, m hx]
  rw [step [mg] 1 (L + n + 9) 2 rfl (by norm_num), step _ 2 (L + n + 8) 2 rfl (by norm_num),
    step _ 3 (L + n + 7) 1 rfl (by norm_num), step _ 4 (L + n + 6) _ rfl h1, step _ 5 (L + n + 5) 0 rfl (by norm_num),
    step _ 6 (L + n + 4) (n * 4) rfl (by omega)]
  have hw := putWords_end ([mg] ++ [2] ++ [2] ++ [1] ++ [8 + n * 4] ++ [0] ++ [n * 4]) q (L + 4) n
  rw [show n + (L + 4) = L + n + 4 by omega] at hw
  change putWords _ 7 q n = _ at hw
  rw [hw]
  rw [step _ (7 + n) (L + 3) _ (by simp; omega) h3, step _ (7 + n + 1) (L + 2) 2 (by simp; omega) (by norm_num),
    step _ (7 + n + 2) (L + 1) _ (by simp; omega) h2, step _ (7 + n + 3) L 0 (by simp; omega) (by norm_num)]
  have ha := putAll_end n 0 vals ([mg] ++ [2] ++ [2] ++ [1] ++ [8 + n * 4] ++ [0] ++ [n * 4] ++ ((List.range n).map fun j => word j q) ++
    [vals.length] ++ [2] ++ [n * 4 * vals.length] ++ [0])
  rw [hL, Nat.add_zero] at ha
  have hlen : ([mg] ++ [2] ++ [2] ++ [1] ++ [8 + n * 4] ++ [0] ++ [n * 4] ++ ((List.range n).map fun j => word j q) ++
    [vals.length] ++ [2] ++ [n * 4 * vals.length] ++ [0]).length = 7 + n + 4 := by simp; omega
  rw [hlen] at ha
  rw [ha]
  simp

theorem jsFile_eq {n q : Nat} {vals : List Nat} (h1 : 8 + n * 4 < 2 ^ 32) (h2 : n * 4 * vals.length < 2 ^ 32)
    (h3 : vals.length < 2 ^ 32) : jsFile n q vals = cppFile (n * 4) q vals.length vals := by
  unfold jsFile cppFile
  rw [jsWords_eq h1 h2 h3, le8_small h1, le8_small h2]
  simp only [List.flatMap_append, List.flatMap_cons, List.flatMap_nil, List.append_nil, List.flatMap_assoc, ← le_words,
    List.append_assoc]
  rw [show n * 4 = 4 * n by omega]
  rfl

/-! ### Numbers in words -/

theorem ofDigits_words (v : Nat) : ∀ n, Nat.ofDigits (2 ^ 32) ((List.range n).map fun j => word j v) = v % 2 ^ (32 * n)
  | 0 => by simp [Nat.mod_one]
  | n + 1 => by
    rw [List.range_succ, List.map_append, Nat.ofDigits_append, ofDigits_words v n, List.length_map, List.length_range]
    simp only [List.map_cons, List.map_nil, Nat.ofDigits_singleton, word]
    rw [← pow_mul, show 32 * (n + 1) = 32 * n + 32 by ring, pow_add 2 (32 * n) 32, Nat.mod_mul]

theorem jsNumber_eq {v n : Nat} (h : v < 2 ^ (32 * n)) : jsNumber v n = v := by
  have e : ∀ l : List Nat, fromArray32 l = l.foldl (fun r d => 2 ^ 32 * r + d) 0 := by
    intro l; unfold fromArray32; simp only [Nat.mul_comm]
  unfold jsNumber
  rw [e, foldl_digits, ofDigits_words, Nat.mod_eq_of_lt h]

theorem digits_words (v : Nat) : ∀ (n : Nat), v < 2 ^ (32 * n) →
    Nat.digits (2 ^ 32) v ++ List.replicate (n - (Nat.digits (2 ^ 32) v).length) 0 = (List.range n).map fun j => word j v := by
  intro n h
  have hl : (Nat.digits (2 ^ 32) v).length ≤ n := (Nat.digits_length_le_iff (by norm_num) _).2 (by rw [← pow_mul]; exact h)
  refine Nat.ofDigits_inj_of_len_eq (b := 2 ^ 32) (by norm_num) ?_ ?_ ?_ ?_
  · rw [List.length_append, List.length_replicate, List.length_map, List.length_range]; omega
  · intro d hd
    rcases List.mem_append.1 hd with hd | hd
    · exact Nat.digits_lt_base (by norm_num) hd
    · rw [(List.mem_replicate.1 hd).2]; norm_num
  · intro d hd
    obtain ⟨j, _, rfl⟩ := List.mem_map.1 hd
    exact Nat.mod_lt _ (by norm_num)
  · rw [ofDigits_words, Nat.ofDigits_append, Nat.ofDigits_replicate_zero, Nat.ofDigits_digits, Nat.mod_eq_of_lt h]
    simp

theorem inputWords_eq {v n : Nat} (h : v < 2 ^ (32 * n)) : inputWords v n = (List.range n).map fun j => word j v := by
  unfold inputWords toArray32Sized toArray32
  rw [List.reverse_append, List.reverse_reverse, List.reverse_replicate, List.length_reverse, digits_words v n h]

end Verif.Wtns
