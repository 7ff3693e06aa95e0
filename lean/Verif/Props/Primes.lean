import Verif.PrimeCert
import Verif.FieldData
import Verif.Gold
import Verif.Props.Driver
import Verif.Props.WMem

/-!
# C100: the field is the one the option names

Every prime the compiler offers is prime, no two names stand for one prime, and the constants in the arithmetic of the generated
programs belong to that prime.
-/

namespace Verif.Props.Primes

open Verif.Driver Verif.FieldData Verif.WMem Verif.Props.WMem

/-- The names that `--prime` accepts. -/
def names : List String := ["bn128", "bls12381", "goldilocks", "grumpkin", "pallas", "vesta", "secq256r1", "bls12377"]

theorem names_of_config {o : Options} {c : Config} (h : config o = some c) : c.prime ∈ names := by
  obtain ⟨st, sa, p, -, -, hp, -, -, rfl⟩ := Props.Driver.config_spec h
  dsimp only
  unfold prime at hp
  split at hp
  · split at hp
    · next hor =>
      obtain rfl := Option.some.inj hp
      simpa only [names, List.mem_cons, List.not_mem_nil, or_false] using hor
    · exact absurd hp (by simp)
  · obtain rfl := Option.some.inj hp
    simp [names]

theorem cases_of_mem {P : String → Prop} (h : ∀ n ∈ names, P n) {o : Options} {c : Config} (hc : config o = some c) : P c.prime :=
  h _ (names_of_config hc)

/-- **C100 (prime).**  The number of the compiler for an accepted option is an odd prime. -/
theorem C100_prime {o : Options} {c : Config} (h : config o = some c) : ∃ p, constant c.prime = some p ∧ p.Prime ∧ p % 2 = 1 := by
  refine cases_of_mem (P := fun n => ∃ p, constant n = some p ∧ p.Prime ∧ p % 2 = 1) ?_ h
  simp only [names, List.forall_mem_cons]
  exact ⟨⟨_, rfl, PrimeCert.bn128, by decide +kernel⟩, ⟨_, rfl, PrimeCert.bls12381, by decide +kernel⟩,
    ⟨_, rfl, PrimeCert.goldilocks, by decide +kernel⟩, ⟨_, rfl, PrimeCert.grumpkin, by decide +kernel⟩,
    ⟨_, rfl, PrimeCert.pallas, by decide +kernel⟩, ⟨_, rfl, PrimeCert.vesta, by decide +kernel⟩,
    ⟨_, rfl, PrimeCert.secq256r1, by decide +kernel⟩, ⟨_, rfl, PrimeCert.bls12377, by decide +kernel⟩, by simp⟩

/-- **C100 (names).**  Different names stand for different fields. -/
theorem C100_names {o o' : Options} {c c' : Config} (h : config o = some c) (h' : config o' = some c')
    (he : constant c.prime = constant c'.prime) : c.prime = c'.prime := by
  have key : ∀ a ∈ names, ∀ b ∈ names, constant a = constant b → a = b := by decide +kernel
  exact key _ (names_of_config h) _ (names_of_config h') he

/-- The number of a list of words of 64 bits, lowest first. -/
def value : List Nat → Nat
  | [] => 0
  | x :: l => x + 2 ^ 64 * value l

/-- The constants of Montgomery arithmetic on four words modulo `p`: the prime, its half rounded down, the square and the cube of `2 ^ 256`, the mask
of the bits of the highest word, and the negative of the inverse of the prime modulo `2 ^ 64`. -/
structure Fits (p : Nat) (d : Asm) : Prop where
  four : d.q.length = 4 ∧ d.half.length = 4 ∧ d.r2.length = 4 ∧ d.r3.length = 4
  words : ∀ x ∈ d.mask :: d.np :: (d.q ++ d.half ++ d.r2 ++ d.r3), x < 2 ^ 64
  q : value d.q = p
  half : 2 * value d.half + 1 = p
  r2 : value d.r2 < p ∧ value d.r2 ≡ (2 ^ 256) ^ 2 [MOD p]
  r3 : value d.r3 < p ∧ value d.r3 ≡ (2 ^ 256) ^ 3 [MOD p]
  mask : ∃ k, d.mask + 1 = 2 ^ k ∧ p < 2 ^ (192 + k) ∧ 2 ^ (192 + k) ≤ 2 * p
  np : (d.np * p + 1) % 2 ^ 64 = 0

/-- `Fits`, decided. -/
def fitsB (p : Nat) (d : Asm) (k : Nat) : Bool :=
  decide (d.q.length = 4 ∧ d.half.length = 4 ∧ d.r2.length = 4 ∧ d.r3.length = 4) &&
  (d.mask :: d.np :: (d.q ++ d.half ++ d.r2 ++ d.r3)).all (fun x => decide (x < 2 ^ 64)) &&
  decide (value d.q = p ∧ 2 * value d.half + 1 = p) && decide (value d.r2 < p ∧ value d.r2 % p = (2 ^ 256) ^ 2 % p) &&
  decide (value d.r3 < p ∧ value d.r3 % p = (2 ^ 256) ^ 3 % p) &&
  decide (d.mask + 1 = 2 ^ k ∧ p < 2 ^ (192 + k) ∧ 2 ^ (192 + k) ≤ 2 * p) && decide ((d.np * p + 1) % 2 ^ 64 = 0)

theorem fits_of {p : Nat} {d : Asm} (k : Nat) (h : fitsB p d k = true) : Fits p d := by
  simp only [fitsB, Bool.and_eq_true, decide_eq_true_eq, List.all_eq_true] at h
  obtain ⟨⟨⟨⟨⟨⟨h1, h2⟩, h3, h4⟩, h5⟩, h6⟩, h7⟩, h8⟩ := h
  exact ⟨h1, h2, h3, h4, h5, h6, ⟨k, h7⟩, h8⟩

/-- **C100 (assembly).**  The C++ program in assembly computes modulo the prime of the compiler: there is a file for every accepted name but
`goldilocks`, and its constants are those of that prime.  The C++ file for `goldilocks` has that prime and its half. -/
theorem C100_asm {o : Options} {c : Config} (h : config o = some c) :
    (c.prime ≠ "goldilocks" → ∃ p d, constant c.prime = some p ∧ asm c.prime = some d ∧ Fits p d) ∧
    (c.prime = "goldilocks" → constant c.prime = some Gold.P ∧ 2 * Gold.half + 1 = Gold.P) := by
  refine cases_of_mem (P := fun n => (n ≠ "goldilocks" → ∃ p d, constant n = some p ∧ asm n = some d ∧ Fits p d) ∧
    (n = "goldilocks" → constant n = some Gold.P ∧ 2 * Gold.half + 1 = Gold.P)) ?_ h
  simp only [names, List.forall_mem_cons]
  refine ⟨⟨fun _ => ⟨_, _, rfl, rfl, fits_of 62 (by decide +kernel)⟩, fun e => absurd e (by decide)⟩,
    ⟨fun _ => ⟨_, _, rfl, rfl, fits_of 63 (by decide +kernel)⟩, fun e => absurd e (by decide)⟩,
    ⟨fun e => absurd rfl e, fun _ => ⟨rfl, by decide +kernel⟩⟩,
    ⟨fun _ => ⟨_, _, rfl, rfl, fits_of 62 (by decide +kernel)⟩, fun e => absurd e (by decide)⟩,
    ⟨fun _ => ⟨_, _, rfl, rfl, fits_of 63 (by decide +kernel)⟩, fun e => absurd e (by decide)⟩,
    ⟨fun _ => ⟨_, _, rfl, rfl, fits_of 63 (by decide +kernel)⟩, fun e => absurd e (by decide)⟩,
    ⟨fun _ => ⟨_, _, rfl, rfl, fits_of 64 (by decide +kernel)⟩, fun e => absurd e (by decide)⟩,
    ⟨fun _ => ⟨_, _, rfl, rfl, fits_of 61 (by decide +kernel)⟩, fun e => absurd e (by decide)⟩, by simp⟩

/-! ### WebAssembly -/

/-- Where the data of the field stand: the length of the prime, the prime, `2 ^ (64 · n)` and its square and cube modulo the prime, one in Montgomery form,
the half of the prime (twice), for `n` words. -/
structure Stands (p n : Nat) (b : Bytes) (bits base half : Nat) : Prop where
  bits : load b bits 8 = Nat.log2 p + 1 ∧ load b (bits + 8) (8 * n) = 0
  q : load b base (8 * n) = p
  r : load b (base + 8 * n) (8 * n) = 2 ^ (64 * n) % p
  r2 : load b (base + 16 * n) (8 * n) = (2 ^ (64 * n)) ^ 2 % p
  r3 : load b (base + 24 * n) (8 * n) = (2 ^ (64 * n)) ^ 3 % p
  one : load b (base + 32 * n) (8 * n) = 2 ^ (64 * n) % p
  half : 2 * load b (base + 48 * n) (8 * n) + 1 = p ∧ 2 * load b half (8 * n) + 1 = p

/-- `Stands`, decided. -/
def standsB (p n : Nat) (b : Bytes) (bits base half : Nat) : Bool :=
  decide (load b bits 8 = Nat.log2 p + 1) && decide (load b (bits + 8) (8 * n) = 0) && decide (load b base (8 * n) = p) &&
  decide (load b (base + 8 * n) (8 * n) = 2 ^ (64 * n) % p) && decide (load b (base + 16 * n) (8 * n) = (2 ^ (64 * n)) ^ 2 % p) &&
  decide (load b (base + 24 * n) (8 * n) = (2 ^ (64 * n)) ^ 3 % p) && decide (load b (base + 32 * n) (8 * n) = 2 ^ (64 * n) % p) &&
  decide (2 * load b (base + 48 * n) (8 * n) + 1 = p) && decide (2 * load b half (8 * n) + 1 = p)

theorem stands_of {p n bits base half : Nat} {b : Bytes} (h : standsB p n b bits base half = true) : Stands p n b bits base half := by
  simp only [standsB, Bool.and_eq_true, decide_eq_true_eq] at h
  obtain ⟨⟨⟨⟨⟨⟨⟨⟨h1, h2⟩, h3⟩, h4⟩, h5⟩, h6⟩, h7⟩, h8⟩, h9⟩ := h
  exact ⟨⟨h1, h2⟩, h3, h4, h5, h6, h7, h8, h9⟩

theorem load_congr {b b' : Bytes} {a : Nat} : ∀ k, (∀ i, i < k → b (a + i) = b' (a + i)) → load b a k = load b' a k
  | 0, _ => rfl
  | k + 1, h => by rw [load, load, load_congr k fun i hi => h i (by omega), h k (by omega)]

theorem Stands.congr {p n bits base half top : Nat} {b b' : Bytes} (h : Stands p n b bits base half) (he : ∀ x, 4 ≤ x → x < top → b' x = b x)
    (h1 : 4 ≤ bits) (h2 : bits + 8 + 8 * n ≤ top) (h3 : 4 ≤ base) (h4 : base + 56 * n ≤ top) (h5 : 4 ≤ half) (h6 : half + 8 * n ≤ top) :
    Stands p n b' bits base half := by
  have e : ∀ a k, 4 ≤ a → a + k ≤ top → load b' a k = load b a k := fun a k ha hk =>
    load_congr k fun i hi => he _ (by omega) (by omega)
  obtain ⟨⟨s1, s2⟩, s3, s4, s5, s6, s7, s8, s9⟩ := h
  refine ⟨⟨?_, ?_⟩, ?_, ?_, ?_, ?_, ?_, ?_, ?_⟩ <;> rw [e _ _ (by omega) (by omega)] <;> assumption

/-- Below the prime of the module, memory has the data of the field, but for the first word. -/
theorem low {p : WMem.Prod} {fr : List (Nat × List Nat)} (hs : Setup p fr) {b : Bytes} (hb : initial p fr = some b) {x : Nat}
    (h1 : 4 ≤ x) (h2 : x < p.rawPrime) : b x = (fr.foldl write fun _ => 0) x := by
  unfold initial at hb
  rw [Option.map_eq_some_iff] at hb
  obtain ⟨l, hl, rfl⟩ := hb
  obtain ⟨d, hd, rfl⟩ := segments_parts hl (fun t h => length_table hs h)
  obtain ⟨b1, b2, b3, b4, b5, b6, b7, b8, b9, b10, b11, b12, b13, b14, b15, b16⟩ := layout p
  rw [List.foldl_append, foldl_out]
  intro s hsg
  obtain ⟨a0, a1, a2, a3, a4, a5, a6⟩ := hd.lengths
  unfold Parts.segs at hsg
  have hm : ∀ (l : List (List Nat)) (a : Nat), ∀ s ∈ msgSegs a l, a ≤ s.1 := by
    intro l
    induction l with
    | nil => intro a s h; simp [msgSegs] at h
    | cons y l ih =>
      intro a s h
      rcases List.mem_cons.1 h with rfl | h
      · exact le_rfl
      · have := ih _ s h; omega
  rcases List.mem_append.1 hsg with h | h
  · simp only [List.mem_cons, List.not_mem_nil, or_false] at h
    rcases h with rfl | rfl | rfl | rfl | rfl | rfl | rfl <;> dsimp only <;> omega
  · have : p.msgList ≤ s.1 := by
      rcases List.mem_append.1 h with h | h
      · exact hm _ _ s h
      · rcases List.mem_append.1 h with h | h
        · have := hm _ _ s h; omega
        · simp only [List.mem_singleton] at h
          rw [h]; show p.msgList ≤ p.constStart; omega
    left; omega

/-- A producer made for a name of a prime (compiler/src/circuit_design/build.rs:205-222), and the data that go with it. -/
structure MadeFor (name : String) (p : WMem.Prod) (fr : List (Nat × List Nat)) : Prop where
  q : constant name = some p.q
  size : frSize name = some p.frSize
  data : wat name = some fr

/-- What `Setup` asks of the field. -/
structure FieldOk (q s : Nat) (fr : List (Nat × List Nat)) : Prop where
  odd : q % 2 = 1
  big : 2 ^ 63 < q
  len : Nat.log2 q < 2 ^ 20
  words : 32 ≤ Nat.log2 q % 64
  scratch : 8 + 16 * (Nat.log2 q / 64 + 2) ≤ 4 + s
  data : ∀ g ∈ fr, g.1 + g.2.length ≤ 4 + s

def fieldB (q s : Nat) (fr : List (Nat × List Nat)) : Bool :=
  decide (q % 2 = 1) && decide (2 ^ 63 < q) && decide (Nat.log2 q < 2 ^ 20) && decide (32 ≤ Nat.log2 q % 64) &&
  decide (8 + 16 * (Nat.log2 q / 64 + 2) ≤ 4 + s) && fr.all fun g => decide (g.1 + g.2.length ≤ 4 + s)

theorem field_of {q s : Nat} {fr : List (Nat × List Nat)} (h : fieldB q s fr = true) : FieldOk q s fr := by
  simp only [fieldB, Bool.and_eq_true, decide_eq_true_eq, List.all_eq_true] at h
  obtain ⟨⟨⟨⟨⟨h1, h2⟩, h3⟩, h4⟩, h5⟩, h6⟩ := h
  exact ⟨h1, h2, h3, h4, h5, h6⟩

theorem field_cases : ∀ n ∈ names, ∃ q s fr, constant n = some q ∧ frSize n = some s ∧ wat n = some fr ∧ FieldOk q s fr ∧
    (n ≠ "goldilocks" → s = 1948 ∧ Stands q 4 (fr.foldl write fun _ => 0) 88 608 1920) ∧
    (n = "goldilocks" → s = 412 ∧ Stands q 1 (fr.foldl write fun _ => 0) 40 176 408) := by
  simp only [names, List.forall_mem_cons]
  refine ⟨?_, ?_, ?_, ?_, ?_, ?_, ?_, ?_, by simp⟩
  case refine_3 =>
    exact ⟨_, _, _, rfl, rfl, rfl, field_of (by decide +kernel), fun e => absurd rfl e, fun _ => ⟨rfl, stands_of (by decide +kernel)⟩⟩
  all_goals
    exact ⟨_, _, _, rfl, rfl, rfl, field_of (by decide +kernel), fun _ => ⟨rfl, stands_of (by decide +kernel)⟩, fun e => absurd e (by decide)⟩

/-- **C100 (field of the module).**  Of what C85 asks of a module, the part about the field holds for every accepted name. -/
theorem C100_setup {o : Options} {c : Config} (h : config o = some c) {p : WMem.Prod} {fr : List (Nat × List Nat)} (hm : MadeFor c.prime p fr)
    (table : ∃ m, m ≤ 32 ∧ p.tab = 2 ^ m) (starts : Props.HashMap.Starts p.infos) (hashes : (p.infos.map fun i => HashMap.hasher i.name).Nodup)
    (zero : ∀ i ∈ p.infos, HashMap.hasher i.name ≠ 0) (ascii : ∀ i ∈ p.infos, ∀ c ∈ i.name.toList, c.toNat < 128)
    (place : ∀ i ∈ p.infos, p.outs + 1 ≤ i.start ∧ i.start + i.size ≤ p.outs + 1 + p.ins) (room : p.outs + 1 + p.ins ≤ p.signals)
    (wit : ∀ s ∈ p.wit, s < p.signals) : Setup p fr := by
  obtain ⟨q, s, fr', hq, hs, hf, hok, -, -⟩ := field_cases _ (names_of_config h)
  obtain rfl := Option.some.inj (hq.symm.trans hm.q)
  obtain rfl := Option.some.inj (hs.symm.trans hm.size)
  obtain rfl := Option.some.inj (hf.symm.trans hm.data)
  exact ⟨hok.odd, hok.big, hok.len, hok.words, hok.scratch, hok.data, table, starts, hashes, zero, ascii, place, room, wit⟩

/-- **C100 (WebAssembly).**  For every accepted name, a module made for it has the data of the field of that prime in its memory when it has been
instantiated, at the addresses its functions read. -/
theorem C100_wasm {o : Options} {c : Config} (h : config o = some c) {p : WMem.Prod} {fr : List (Nat × List Nat)} {b : Bytes}
    (hm : MadeFor c.prime p fr) (hsu : Setup p fr) (hb : initial p fr = some b) :
    (c.prime ≠ "goldilocks" → Stands p.q 4 b 88 608 1920) ∧ (c.prime = "goldilocks" → Stands p.q 1 b 40 176 408) := by
  obtain ⟨q, s, fr', hq, hs, hf, hok, h1, h2⟩ := field_cases _ (names_of_config h)
  obtain rfl := Option.some.inj (hq.symm.trans hm.q)
  obtain rfl := Option.some.inj (hf.symm.trans hm.data)
  have hsz := Option.some.inj (hs.symm.trans hm.size)
  have hlow := fun x h4 hx => low hsu hb (x := x) h4 hx
  refine ⟨fun hn => ?_, fun hn => ?_⟩
  · obtain ⟨rfl, hst⟩ := h1 hn
    exact hst.congr (top := p.rawPrime) hlow (by omega) (by unfold WMem.Prod.rawPrime; omega) (by omega)
      (by unfold WMem.Prod.rawPrime; omega) (by omega) (by unfold WMem.Prod.rawPrime; omega)
  · obtain ⟨rfl, hst⟩ := h2 hn
    exact hst.congr (top := p.rawPrime) hlow (by omega) (by unfold WMem.Prod.rawPrime; omega) (by omega)
      (by unfold WMem.Prod.rawPrime; omega) (by omega) (by unfold WMem.Prod.rawPrime; omega)

/-! ### A case -/

/-- The options of `Props.Driver` with each name in turn. -/
example : ∀ n ∈ names, (config { Props.Driver.opts with prime := some n }).map (·.prime) = some n := by decide +kernel

/-- The module of `Props.WMem` for `secq256r1`, whose prime has 256 bits. -/
def exS : WMem.Prod :=
  { exP with q := 115792089210356248762697446949407573530086143415290314195533631308867097853951, frSize := 1948 }

example : MadeFor "secq256r1" exS watSecq256r1 ∧ Setup exS watSecq256r1 ∧ (initial exS watSecq256r1).isSome = true := by
  obtain ⟨c, hc, hp⟩ := Option.map_eq_some_iff.1 (show (config { Props.Driver.opts with prime := some "secq256r1" }).map (·.prime) = some "secq256r1" by
    decide +kernel)
  have hm : MadeFor c.prime exS watSecq256r1 := by rw [hp]; exact ⟨rfl, rfl, rfl⟩
  have h := ex_setup
  exact ⟨⟨rfl, rfl, rfl⟩, C100_setup hc hm h.table h.starts h.hashes h.zero h.ascii h.place h.room h.wit, by decide +kernel⟩

end Verif.Props.Primes
