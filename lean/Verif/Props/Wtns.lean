import Verif.WtnsLemmas
import Verif.Props.Frg

/-!
# C82: the witness file holds the witness, and both programs write the same file

The reader below follows the published layout of the file and shares nothing with the writers.
-/

namespace Verif.Props.Wtns

open Verif.Wtns Verif.Frg Verif.Props.Frg

set_option linter.unusedSimpArgs false
set_option linter.unusedVariables false

/-! ### A reader -/

/-- The number of some bytes, lowest first. -/
def number : List Nat → Nat
  | [] => 0
  | b :: bs => b + 256 * number bs

/-- The next `k` bytes as a number. -/
def field (k : Nat) (bs : List Nat) : Option (Nat × List Nat) :=
  if bs.length < k then none else some (number (bs.take k), bs.drop k)

/-- `n` numbers of `k` bytes. -/
def fields (k : Nat) : Nat → List Nat → Option (List Nat × List Nat)
  | 0, bs => some ([], bs)
  | n + 1, bs => do
    let (x, bs) ← field k bs
    let (xs, bs) ← fields k n bs
    return (x :: xs, bs)

/-- What a witness file says. -/
structure Contents where
  size : Nat
  prime : Nat
  values : List Nat
deriving DecidableEq, Repr

/-- Reads a whole file: the text `wtns`, version 2, two sections, each with its number and its length in bytes. -/
def readFile (bs : List Nat) : Option Contents := do
  let (w, bs) ← fields 1 4 bs
  if w ≠ [0x77, 0x74, 0x6e, 0x73] then none
  let (version, bs) ← field 4 bs
  if version ≠ 2 then none
  let (sections, bs) ← field 4 bs
  if sections ≠ 2 then none
  let (s1, bs) ← field 4 bs
  if s1 ≠ 1 then none
  let (len1, bs) ← field 8 bs
  let (size, bs) ← field 4 bs
  if len1 ≠ 4 + size + 4 then none
  let (prime, bs) ← field size bs
  let (count, bs) ← field 4 bs
  let (s2, bs) ← field 4 bs
  if s2 ≠ 2 then none
  let (len2, bs) ← field 8 bs
  if len2 ≠ size * count then none
  if bs.length ≠ len2 then none
  let (values, _) ← fields size count bs
  return ⟨size, prime, values⟩

theorem number_le : ∀ k n, n < 256 ^ k → number (le k n) = n
  | 0, n, h => by simp at h; simp [le, number, h]
  | k + 1, n, h => by
    rw [le, number, number_le k _ (by rw [pow_succ] at h; exact Nat.div_lt_of_lt_mul (by omega))]
    omega

theorem field_le {k n : Nat} (h : n < 256 ^ k) (bs : List Nat) : field k (le k n ++ bs) = some (n, bs) := by
  unfold field
  rw [if_neg (by simp [length_le]), List.take_left' (length_le k n), List.drop_left' (length_le k n), number_le k n h]

theorem fields_le (k : Nat) : ∀ (vs : List Nat), (∀ v ∈ vs, v < 256 ^ k) →
    fields k vs.length (vs.flatMap (le k)) = some (vs, [])
  | [], _ => rfl
  | v :: vs, h => by
    rw [List.length_cons, fields, List.flatMap_cons, field_le (h v (by simp))]
    simp [fields_le k vs fun x hx => h x (by simp [hx])]

/-- What is written is read. -/
theorem C82_read (k q : Nat) (vs : List Nat) (hk : k < 2 ^ 32) (hq : q < 256 ^ k) (hv : ∀ v ∈ vs, v < 256 ^ k)
    (hn : vs.length < 2 ^ 32) : readFile (cppFile k q vs.length vs) = some ⟨k, q, vs⟩ := by
  have e4 : ∀ {x : Nat}, x < 2 ^ 32 → x < 256 ^ 4 := fun h => by norm_num at h ⊢; exact h
  have e8 : ∀ {x : Nat}, x < 2 ^ 64 → x < 256 ^ 8 := fun h => by norm_num at h ⊢; exact h
  have hm : k * vs.length < 2 ^ 64 := by
    calc k * vs.length < 2 ^ 32 * 2 ^ 32 := Nat.mul_lt_mul'' hk hn
      _ = 2 ^ 64 := by norm_num
  have hw : ∀ bs, fields 1 4 (magic ++ bs) = some (magic, bs) := by
    intro bs
    simp [fields, field, magic, number]
  have hl : (vs.flatMap (le k)).length = k * vs.length := by
    clear hv hn hm
    induction vs with
    | nil => rfl
    | cons v vs ih => rw [List.flatMap_cons, List.length_append, ih, length_le, List.length_cons]; ring
  unfold readFile cppFile
  simp only [List.append_assoc]
  rw [hw]
  simp only [Option.bind_eq_bind, Option.bind_some]
  rw [field_le (e4 (by norm_num)), if_neg (by decide)]
  simp only [Option.bind_eq_bind, Option.bind_some, Option.pure_def]
  rw [field_le (e4 (by norm_num))]
  simp only [Option.bind_some, ne_eq, not_true_eq_false, if_false]
  rw [field_le (e4 (by norm_num))]
  simp only [Option.bind_some, ne_eq, not_true_eq_false, if_false]
  rw [field_le (e8 (show 8 + k < 2 ^ 64 by omega))]
  simp only [Option.bind_some, ne_eq, not_true_eq_false, if_false]
  rw [field_le (e4 hk)]
  simp only [Option.bind_some, ne_eq, not_true_eq_false, if_false]
  rw [if_neg (by omega)]
  rw [field_le hq]
  simp only [Option.bind_some, ne_eq, not_true_eq_false, if_false]
  rw [field_le (e4 hn)]
  simp only [Option.bind_some, ne_eq, not_true_eq_false, if_false]
  rw [field_le (e4 (by norm_num))]
  simp only [Option.bind_some, ne_eq, not_true_eq_false, if_false]
  rw [field_le (e8 hm)]
  simp only [Option.bind_some, ne_eq, not_true_eq_false, if_false, hl]
  rw [fields_le k vs hv]
  rfl

/-! ### The files of the two programs -/

theorem lt_bytes (q : Nat) : q < 256 ^ n8 q := by
  have h := lt_qbits q
  unfold n8 n64
  rw [show (256 : Nat) = 2 ^ 8 by norm_num, ← pow_mul]
  exact lt_of_lt_of_le h (Nat.pow_le_pow_right (by norm_num) (by omega))

theorem raws {q : Nat} (hq : Good q) {ws : List El} {vs : List Nat} (h : List.Forall₂ (fun (e : El) (v : Nat) => Denotes q e v) ws vs) :
    (ws.map fun v => (toLongNormal q v v).raw) = vs ∧ ∀ v ∈ vs, v < q := by
  induction h with
  | nil => simp
  | cons he _ ih =>
    obtain ⟨_, _, h3⟩ := C81_print hq he _
    have hlt := he.2.1
    refine ⟨by rw [List.map_cons, ih.1]; congr 1; exact_mod_cast h3, ?_⟩
    intro v hv
    rcases List.mem_cons.1 hv with rfl | hv
    · exact_mod_cast hlt
    · exact ih.2 v hv

/-- The file of the C++ program, whatever the form of the elements of the witness in memory. -/
theorem C82_cpp {q : Nat} (hq : Good q) {ws : List El} {vs : List Nat}
    (h : List.Forall₂ (fun (e : El) (v : Nat) => Denotes q e v) ws vs) (hn : ws.length < 2 ^ 32) :
    readFile (cppWitness q ws) = some ⟨8 * (Nat.log2 q / 64 + 1), q, vs⟩ := by
  obtain ⟨h1, h2⟩ := raws hq h
  have hk : n8 q = 8 * (Nat.log2 q / 64 + 1) := by unfold n8 n64 qbits; omega
  have hl := hq.len
  have hb := lt_bytes q
  unfold cppWitness
  rw [h1, h.length_eq, ← hk]
  refine C82_read (n8 q) q vs (by rw [hk]; omega) hb (fun v hv => lt_trans (h2 v hv) hb) ?_
  rw [← h.length_eq]; exact hn

/-- The file of the C++ program with the prime goldilocks. -/
theorem C82_cpp64 {q : Nat} {ws : List Nat} (hq : q < 2 ^ 64) (h : ∀ v ∈ ws, v < q) (hn : ws.length < 2 ^ 32) :
    readFile (cppWitness64 q ws) = some ⟨8, q, ws⟩ := by
  have hb : q < 256 ^ 8 := by norm_num at hq ⊢; exact hq
  exact C82_read 8 q ws (by norm_num) hb (fun v hv => lt_trans (h v hv) hb) hn

/-- The file of the JavaScript program. -/
theorem C82_js {q : Nat} {vs : List Nat} (hl : Nat.log2 q < 2 ^ 31) (hv : ∀ v ∈ vs, v < q)
    (hn : 4 * (Nat.log2 q / 32 + 1) * vs.length < 2 ^ 32) :
    readFile (jsFile (n32 q) q vs) = some ⟨4 * (Nat.log2 q / 32 + 1), q, vs⟩ := by
  have hk : n32 q = Nat.log2 q / 32 + 1 := by unfold n32 qbits; split <;> omega
  have hb : q < 256 ^ (n32 q * 4) := by
    have h := lt_qbits q
    rw [show (256 : Nat) = 2 ^ 8 by norm_num, ← pow_mul]
    refine lt_of_lt_of_le h (Nat.pow_le_pow_right (by norm_num) ?_)
    rw [hk]; unfold qbits; omega
  have h1 : vs.length ≤ 4 * (Nat.log2 q / 32 + 1) * vs.length := Nat.le_mul_of_pos_left _ (by omega)
  rw [jsFile_eq (by rw [hk]; omega) (by rw [hk, Nat.mul_comm _ 4]; exact hn) (by omega)]
  rw [C82_read _ q vs (by rw [hk]; omega) hb (fun v hv' => lt_trans (hv v hv') hb) (by omega), hk, Nat.mul_comm _ 4]

/-- Both programs write the same file for the same witness.  The bound on the length holds for every program that can run: a signal
takes `4·n32 + 8` bytes of the memory of the WebAssembly module, which has at most `2^32`. -/
theorem C82_same {q : Nat} (hq : Good q) (hw : 32 ≤ Nat.log2 q % 64) {ws : List El} {vs : List Nat}
    (h : List.Forall₂ (fun (e : El) (v : Nat) => Denotes q e v) ws vs)
    (hn : (4 * (Nat.log2 q / 32 + 1) + 8) * ws.length ≤ 2 ^ 32) : jsFile (n32 q) q vs = cppWitness q ws := by
  obtain ⟨h1, h2⟩ := raws hq h
  have hl := hq.len
  have hk : n32 q = Nat.log2 q / 32 + 1 := by unfold n32 qbits; split <;> omega
  have h8 : n8 q = n32 q * 4 := by rw [hk]; unfold n8 n64 qbits; omega
  have e := h.length_eq
  unfold cppWitness
  rw [h1, h8, e]
  rw [e, Nat.add_mul] at hn
  by_cases h0 : vs.length = 0
  · refine jsFile_eq (by rw [hk]; omega) (by rw [h0]; norm_num) (by omega)
  · exact jsFile_eq (by rw [hk]; omega) (by rw [hk, Nat.mul_comm _ 4]; omega) (by omega)

theorem C82_same64 {q : Nat} (h0 : 2 ^ 32 ≤ q) (hq : q < 2 ^ 64) {vs : List Nat} (hn : 16 * vs.length ≤ 2 ^ 32) :
    jsFile (n32 q) q vs = cppWitness64 q vs := by
  have l1 : Nat.log2 q < 64 := Nat.log2_lt (by omega) |>.2 hq
  have l2 : 32 ≤ Nat.log2 q := (Nat.le_log2 (by omega)).2 h0
  have hk : n32 q = 2 := by unfold n32 qbits; split <;> omega
  unfold cppWitness64
  rw [hk, jsFile_eq (by norm_num) (by omega) (by omega)]

/-- The condition on the number of words for the primes of the program; with the other conditions by `C81_primes`. -/
theorem C82_primes :
    (∀ q ∈ [21888242871839275222246405745257275088548364400416034343698204186575808495617,
      52435875175126190479447740508185965837690552500527637822603658699938581184513,
      21888242871839275222246405745257275088696311157297823662689037894645226208583,
      28948022309329048855892746252171976963363056481941560715954676764349967630337,
      28948022309329048855892746252171976963363056481941647379679742748393362948097,
      115792089210356248762697446949407573530086143415290314195533631308867097853951,
      8444461749428370424248824938781546531375899335154063827935233455917409239041], 32 ≤ Nat.log2 q % 64) ∧
    2 ^ 32 ≤ 18446744069414584321 ∧ 18446744069414584321 < 2 ^ 64 := by
  decide +kernel

/-- The lengths of sections from `2^32` on are written wrongly by the JavaScript program, the high digits first: the
words for a section of `2^32` bytes say `2^28`.  No module has a memory where this can happen. -/
theorem C82_length_violated :
    parse16 ((hex (2 ^ 32)).take 8) + 2 ^ 32 * parse16 (((hex (2 ^ 32)).drop 8).take 8) = 2 ^ 28 := by
  decide +kernel

/-- Numbers through the shared memory of the module: the words written for an input are those of the number, and the number made of the
words that were read is the value. -/
theorem C82_words {v n : Nat} (h : v < 2 ^ (32 * n)) :
    inputWords v n = (List.range n).map (fun j => v / 2 ^ (32 * j) % 2 ^ 32) ∧ jsNumber v n = v :=
  ⟨inputWords_eq h, jsNumber_eq h⟩

/-! ### Cases -/

example : readFile (cppWitness bn [⟨1, false, false, 0⟩, m5, m7, big]) = some ⟨32, bn, [1, bn - 5, bn - 7, 2 ^ 200 + 1]⟩ ∧
    jsFile (n32 bn) bn [1, bn - 5, bn - 7, 2 ^ 200 + 1] = cppWitness bn [⟨1, false, false, 0⟩, m5, m7, big] := by
  decide +kernel

example : readFile (cppWitness64 18446744069414584321 [1, 18446744069414584320]) =
      some ⟨8, 18446744069414584321, [1, 18446744069414584320]⟩ ∧
    readFile (jsFile 2 18446744069414584321 [1, 2 ^ 40]) = some ⟨8, 18446744069414584321, [1, 2 ^ 40]⟩ := by
  decide +kernel

example : inputWords (2 ^ 40 + 7) 3 = [7, 2 ^ 8, 0] ∧ jsNumber (2 ^ 40 + 7) 3 = 2 ^ 40 + 7 := by decide +kernel

end Verif.Props.Wtns
