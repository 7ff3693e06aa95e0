import Verif.Mapped
import Verif.IndexLemmas

/-! # Lemmas about `Verif.Mapped` -/

namespace Verif.Mapped

set_option linter.unusedSimpArgs false
set_option linter.unusedVariables false

open Verif.ModArith (Fail Res)
open Verif.Address (off)

/-- Position of an access relative to the symbol it starts from: row-major positions of the indexed parts plus the offsets of
the fields.  `none` when a field does not exist. -/
def pos (buses : List (List Def)) : Def → List Acc → Option Int
  | _, [] => some 0
  | d, .indexed vs _ :: rest =>
    match pos buses d rest with
    | some r => some (off d.lengths (vs.map Ix.val) d.size + r)
    | none => none
  | d, .qualified f :: rest =>
    match d.bus with
    | none => none
    | some b =>
      match buses[b]? with
      | none => none
      | some fs =>
        match fs[f]? with
        | none => none
        | some d' =>
          match pos buses d' rest with
          | some r => some ((d'.offset : Int) + r)
          | none => none

/-- The accesses make sense for the symbol: indices only on arrays, between one and all of them, all of them when a field
follows; fields only of existing buses.  `done` says that the indices of the symbol were already given. -/
def Typed (buses : List (List Def)) : Bool → Def → List Acc → Prop
  | _, _, [] => True
  | done, d, .indexed vs dim :: rest =>
    done = false ∧ dim = d.lengths.length ∧ vs ≠ [] ∧ vs.length ≤ dim ∧
      (rest = [] ∨ (vs.length = dim ∧ startsQual rest = true)) ∧ Typed buses true d rest
  | done, d, .qualified f :: rest =>
    (d.lengths = [] ∨ done = true) ∧
      ∃ b fs d', d.bus = some b ∧ buses[b]? = some fs ∧ fs[f]? = some d' ∧ Typed buses false d' rest

/-- Nested form of the row-major position over the dimensions after the first one. -/
def horner : Int → List Nat → List Int → Int
  | x, l :: ls, v :: vs => horner (x * l + v) ls vs
  | x, _, _ => x

theorem horner_off {s : Nat} : ∀ {ls : List Nat} {vs : List Int} {x : Int}, vs.length ≤ ls.length →
    horner x ls vs * (((ls.drop vs.length).prod : Nat) : Int) * (s : Int) =
      x * ((ls.prod * s : Nat) : Int) + off ls vs s
  | ls, [], x, _ => by cases ls <;> simp [horner, off, mul_assoc]
  | [], v :: vs, x, h => by simp at h
  | l :: ls, v :: vs, x, h => by
    have := horner_off (s := s) (ls := ls) (vs := vs) (x := x * l + v) (by simpa using h)
    simp only [horner, List.length_cons, List.drop_succ_cons, off, List.prod_cons]
    rw [this]
    push_cast
    ring

theorem off_cons {s d0 : Nat} {ls : List Nat} {v : Int} {vs : List Int} (h : vs.length ≤ ls.length) :
    off (d0 :: ls) (v :: vs) s = horner v ls vs * (((ls.drop vs.length).prod : Nat) : Int) * (s : Int) := by
  rw [horner_off h]; rfl

/-! ## C++ expressions -/

theorem cRun_append : ∀ (a b : List Tok) (s : CSt), cRun (a ++ b) s = (cRun a s).bind (cRun b)
  | [], b, s => rfl
  | t :: a, b, s => by
    simp only [List.cons_append, cRun]
    cases cStep s t with
    | none => rfl
    | some s' => exact cRun_append a b s'

/-- The text multiplies the current term by `v`. -/
def ProdT (t : List Tok) (v : Int) : Prop :=
  ∀ s p k, cRun t ⟨s, p, k, true⟩ = some ⟨s, p * v, k, false⟩

/-- The text finishes the current term with factor `a` and leaves the term `b`. -/
def SumT (t : List Tok) (a b : Int) : Prop :=
  ∀ s p k, cRun t ⟨s, p, k, true⟩ = some ⟨s + p * a, b, k, false⟩

/-- The text in parentheses has value `v`. -/
def ValT (t : List Tok) (v : Int) : Prop := ProdT ([.lp] ++ t ++ [.rp]) v

theorem ProdT.val {t : List Tok} {v : Int} (h : ProdT t v) : ValT t v := by
  intro s p k
  rw [cRun_append, cRun_append]
  simp only [cRun, cStep, if_true, Option.bind_some, h 0 1]
  simp

theorem SumT.val {t : List Tok} {a b : Int} (h : SumT t a b) : ValT t (a + b) := by
  intro s p k
  rw [cRun_append, cRun_append]
  simp only [cRun, cStep, if_true, Option.bind_some, h 0 1]
  simp

theorem ProdT.cVal {t : List Tok} {v : Int} (h : ProdT t v) : cVal t = some v := by
  have h' := h 0 1 []
  unfold Mapped.cVal
  rw [h']
  simp

theorem SumT.cVal {t : List Tok} {a b : Int} (h : SumT t a b) : cVal t = some (a + b) := by
  simp [Mapped.cVal, h 0 1]

theorem prodT_num (v : Int) : ProdT [.num v] v := by
  intro s p k; simp [cRun, cStep]

theorem prodT_star {t : List Tok} {v : Int} (h : ProdT t v) (n : Int) : ProdT (t ++ [.star, .num n]) (v * n) := by
  intro s p k
  rw [cRun_append, h]
  simp [cRun, cStep, mul_assoc]

theorem sumT_star {t : List Tok} {a b : Int} (h : SumT t a b) (n : Int) : SumT (t ++ [.star, .num n]) a (b * n) := by
  intro s p k
  rw [cRun_append, h]
  simp [cRun, cStep]

theorem sumT_step {t : List Tok} {x : Int} (h : ValT t x) (b : Bool) (l v : Int) :
    SumT ([.lp] ++ t ++ [.rp, .star] ++ (if b then [.lp, .num l, .rp] else [.num l]) ++ [.plus, .num v]) (x * l) v := by
  intro s p k
  have e : [Tok.lp] ++ t ++ [.rp, .star] ++ (if b then [.lp, .num l, .rp] else [.num l]) ++ [.plus, .num v] =
      ([.lp] ++ t ++ [.rp]) ++ ([.star] ++ (if b then [.lp, .num l, .rp] else [.num l]) ++ [.plus, .num v]) := by
    simp
  rw [e, cRun_append, h]
  cases b <;> simp [cRun, cStep, mul_assoc]

theorem lenAt_run (d : Def) (i : Nat) {l : Nat} (h : d.lengths.tail[i]? = some l) : lenAt d.run i = some (.num l) := by
  simp only [lenAt, Def.run]
  rw [h]; rfl

/-- After the loop over further indices: a single operand when there is none, otherwise a sum. -/
theorem cIdxLoop_some {site : Site} {d : Def} : ∀ {vs : List Int} {i : Nat} {t : List Tok} {x : Int} {ls : List Nat},
    (∀ k, ls[k]? = d.lengths.tail[i - 1 + k]?) → 1 ≤ i → vs.length ≤ ls.length → ValT t x →
    ∃ t', cIdxLoop site d.run i t vs = some t' ∧ (vs = [] → t' = t) ∧
      (vs ≠ [] → ∃ a b, SumT t' a b ∧ a + b = horner x ls vs)
  | [], i, t, x, ls, hls, hi, hl, ht => ⟨t, rfl, fun _ => rfl, fun h => absurd rfl h⟩
  | v :: vs, i, t, x, [], hls, hi, hl, ht => by simp at hl
  | v :: vs, i, t, x, l :: ls, hls, hi, hl, ht => by
    have h0 := hls 0
    simp only [List.getElem?_cons_zero, Nat.add_zero] at h0
    have hs := sumT_step ht (decide (site = .load)) (l : Int) v
    have hs' : SumT ([Tok.lp] ++ t ++ [.rp, .star] ++
        (if site = .load then [.lp, .num (l : Int), .rp] else [.num (l : Int)]) ++ [.plus, .num v]) (x * l) v := by
      simpa using hs
    obtain ⟨t', ht', h1, h2⟩ := cIdxLoop_some (site := site) (d := d) (vs := vs) (i := i + 1) (ls := ls)
      (fun k => by
        have := hls (k + 1)
        rw [List.getElem?_cons_succ] at this
        rw [this]
        congr 1
        omega) (by omega) (by simpa using hl) hs'.val
    refine ⟨t', ?_, by simp, fun _ => ?_⟩
    · simp only [cIdxLoop, lenAt_run d (i - 1) h0.symm]
      exact ht'
    · by_cases hv : vs = []
      · subst hv
        rw [h1 rfl]
        exact ⟨_, _, hs', by simp [horner]⟩
      · simpa [horner] using h2 hv

theorem cMissLoop_some {d : Def} : ∀ {n i : Nat} {t : List Tok} {ls : List Nat},
    (∀ k, ls[k]? = d.lengths.tail[i - 1 + k]?) → 1 ≤ i → n = ls.length →
    ∃ t', cMissLoop d.run n i t = some t' ∧ (∀ v, ProdT t v → ProdT t' (v * ((ls.prod : Nat) : Int))) ∧
      (∀ a b, SumT t a b → SumT t' a (b * ((ls.prod : Nat) : Int)))
  | 0, i, t, ls, hls, hi, hn => by
    have : ls = [] := List.length_eq_zero_iff.1 hn.symm
    subst this
    exact ⟨t, rfl, by simp, by simp⟩
  | n + 1, i, t, [], hls, hi, hn => by simp at hn
  | n + 1, i, t, l :: ls, hls, hi, hn => by
    have h0 := hls 0
    simp only [List.getElem?_cons_zero, Nat.add_zero] at h0
    obtain ⟨t', ht', h1, h2⟩ := cMissLoop_some (d := d) (n := n) (i := i + 1) (t := t ++ [.star, .num (l : Int)]) (ls := ls)
      (fun k => by
        have := hls (k + 1)
        rw [List.getElem?_cons_succ] at this
        rw [this]
        congr 1
        omega) (by omega) (by simpa using hn)
    refine ⟨t', ?_, fun v hv => ?_, fun a b hab => ?_⟩
    · simp only [cMissLoop, lenAt_run d (i - 1) h0.symm]
      exact ht'
    · have := h1 _ (prodT_star hv l)
      rw [List.prod_cons]
      push_cast
      rwa [← mul_assoc]
    · have := h2 _ _ (sumT_star hab l)
      rw [List.prod_cons]
      push_cast
      rwa [← mul_assoc]

/-- The cases in which the C++ text means the row-major position. -/
def GoodIdx (site : Site) (d : Def) (vs : List Int) : Prop :=
  vs.length = 1 ∨ (vs.length = d.lengths.length ∧ (site = .load ∨ d.size = 1))

theorem cIndexed_val {site : Site} {d : Def} {vs : List Int} {last : Bool} (h0 : vs ≠ [])
    (hl : vs.length ≤ d.lengths.length) (hlast : last = true ∨ vs.length = d.lengths.length) (hg : GoodIdx site d vs) :
    ∃ t, cIndexed site d.run vs d.lengths.length last = .ok (some t) ∧ cVal t = some (off d.lengths vs d.size) := by
  match vs, h0 with
  | v :: vs, _ =>
    match hd : d.lengths with
    | [] => rw [hd] at hl; simp at hl
    | d0 :: ls =>
      rw [hd] at hl hlast
      have htail : d.lengths.tail = ls := by rw [hd]; rfl
      have hlen : vs.length ≤ ls.length := by simpa using hl
      obtain ⟨t, ht, h1, h2⟩ := cIdxLoop_some (site := site) (d := d) (vs := vs) (i := 1) (t := [.num v]) (x := v) (ls := ls)
        (fun k => by rw [htail]; congr 1; omega) le_rfl hlen (prodT_num v).val
      obtain ⟨t', ht', h3, h4⟩ := cMissLoop_some (d := d) (n := (d0 :: ls).length - (v :: vs).length)
        (i := (v :: vs).length) (t := t) (ls := ls.drop vs.length)
        (fun k => by rw [htail, List.getElem?_drop]; congr 1) (by simp)
        (by simp)
      refine ⟨cSize site d.run t', ?_, ?_⟩
      · simp only [cIndexed]
        rw [if_neg (by simpa using hlen), if_neg]
        · simp only [ht, ht']
        · rintro ⟨g1, g2⟩
          rcases hlast with h | h
          · simp [h] at g2
          · rw [h] at g1; simp at g1
      · rw [off_cons hlen]
        by_cases hv : vs = []
        · subst hv
          have hp := h3 v (by rw [h1 rfl]; exact prodT_num v)
          have hh : horner v ls [] = v := by cases ls <;> rfl
          rw [hh]
          unfold cSize
          split
          · have := (prodT_star hp.val (d.run.size : Int)).cVal
            simpa [Def.run] using this
          · exact (prodT_star hp (d.run.size : Int)).cVal
        · obtain ⟨a, b, hab, hsum⟩ := h2 hv
          have hs := h4 a b hab
          rcases hg with hg | ⟨hg, hg'⟩
          · exact absurd (by simpa using hg) hv
          · have hfull : vs.length = ls.length := by rw [hd] at hg; simpa using hg
            have hdrop : ls.drop vs.length = [] := by rw [hfull]; simp
            rw [hdrop] at hs ⊢
            simp only [List.prod_nil, Nat.cast_one, mul_one] at hs ⊢
            unfold cSize
            split
            · rw [← hsum]
              have := (prodT_star hs.val (d.run.size : Int)).cVal
              simpa [Def.run] using this
            · next hne =>
              rcases hg' with hg' | hg'
              · exact absurd hg' hne
              · rw [← hsum, (sumT_star hs (d.run.size : Int)).cVal]
                simp [Def.run, hg']

/-- All index lists of a chain of accesses are of a kind the C++ text handles. -/
def GoodAll (site : Site) (buses : List (List Def)) : Def → List Acc → Prop
  | _, [] => True
  | d, .indexed vs _ :: rest => GoodIdx site d (vs.map Ix.val) ∧ GoodAll site buses d rest
  | d, .qualified f :: rest =>
    ∀ b fs d', d.bus = some b → buses[b]? = some fs → fs[f]? = some d' → GoodAll site buses d' rest

theorem cAccesses_pos {site : Site} {buses : List (List Def)} : ∀ {accs : List Acc} {d : Def} {done : Bool},
    Typed buses done d accs → GoodAll site buses d accs →
    ∃ r, pos buses d accs = some r ∧
      cAccesses site (buses.map fun fs => fs.map Def.run) d.run accs = .ok (some r)
  | [], d, done, _, _ => ⟨0, rfl, rfl⟩
  | .indexed vs dim :: rest, d, done, ht, hg => by
    obtain ⟨_, rfl, h1, h2, h3, h4⟩ := ht
    obtain ⟨hg1, hg2⟩ := hg
    obtain ⟨r, hr, hc⟩ := cAccesses_pos h4 hg2
    have hlast : rest.isEmpty = true ∨ (vs.map Ix.val).length = d.lengths.length := by
      rcases h3 with h | h
      · left; simp [h]
      · right; simpa using h.1
    obtain ⟨t, hi, hv⟩ := cIndexed_val (site := site) (vs := vs.map Ix.val) (by simpa using h1) (by simpa using h2) hlast hg1
    refine ⟨off d.lengths (vs.map Ix.val) d.size + r, by simp [pos, hr], ?_⟩
    simp only [cAccesses, hi, hc, hv]
  | .qualified f :: rest, d, done, ht, hg => by
    obtain ⟨_, b, fs, d', hb, hbs, hfs, ht'⟩ := ht
    obtain ⟨r, hr, hc⟩ := cAccesses_pos ht' (hg b fs d' hb hbs hfs)
    refine ⟨(d'.offset : Int) + r, by simp [pos, hb, hbs, hfs, hr], ?_⟩
    have e1 : (buses.map fun fs => fs.map Def.run)[d.run.bus]? = some (fs.map Def.run) := by
      simp [Def.run, hb, hbs]
    have e2 : (fs.map Def.run)[f]? = some d'.run := by simp [hfs]
    simp only [cAccesses, e1, e2, hc]
    simp [Def.run]

/-! ## wasm code -/

theorem wRun_append (mem : Int → Option Int) : ∀ (a b : List W) (s : List Int × Int),
    wRun mem (a ++ b) s = (wRun mem a s).bind (wRun mem b)
  | [], b, s => rfl
  | i :: a, b, s => by
    simp only [List.cons_append, wRun]
    cases wStep mem i s with
    | none => rfl
    | some s' => exact wRun_append mem a b s'

/-- The definition `d` is stored at address `D`. -/
structure DefAt (mem : Int → Option Int) (fb : Nat) (D : Int) (d : Def) : Prop where
  offset : mem D = some ((d.offset * fb : Nat) : Int)
  lens : ∀ k l : Nat, 1 ≤ k → d.lengths[k]? = some l → mem (D + (4 * k : Nat)) = some (l : Int)
  size : d.lengths ≠ [] → mem (D + (4 * d.lengths.length : Nat)) = some (d.size : Int)
  bus : ∀ b, d.bus = some b →
    mem (D + (if d.lengths = [] then 4 else (4 * (d.lengths.length + 1) : Nat) : Nat)) = some (b : Int)

/-- The lists of `m` are stored through two levels of pointers from `start` on. -/
def ListsAt (mem : Int → Option Int) (fb start : Nat) (m : List (Option (List Def))) : Prop :=
  ∀ t ds, m[t]? = some (some ds) → ∃ A : Int, mem (start + (4 * t : Nat)) = some A ∧
    ∀ c d, ds[c]? = some d → ∃ D : Int, mem (A + (4 * c : Nat)) = some D ∧ DefAt mem fb D d

/-- The code of an index leaves its value and keeps the local `io_info`. -/
def Plain (mem : Int → Option Int) (v : Ix) : Prop :=
  ∀ st io, wRun mem v.code (st, io) = some (v.val :: st, io)

theorem plain_known (mem : Int → Option Int) (v : Int) : Plain mem (.known v) := fun st io => rfl

/-- Every index of a chain of accesses keeps `io_info`. -/
def PlainAll (mem : Int → Option Int) : List Acc → Prop
  | [] => True
  | .indexed vs _ :: rest => (∀ v ∈ vs, Plain mem v) ∧ PlainAll mem rest
  | .qualified _ :: rest => PlainAll mem rest

theorem wIdxLoop_pos : ∀ (p : Nat) (vs : List Ix), (wIdxLoop p vs).2 = p + 4 * vs.length
  | p, [] => rfl
  | p, v :: vs => by
    simp only [wIdxLoop, List.length_cons]
    rw [wIdxLoop_pos (p + 4) vs]
    omega

theorem wMissLoop_pos : ∀ (n p : Nat), (wMissLoop n p).2 = p + 4 * n
  | 0, p => rfl
  | n + 1, p => by
    simp only [wMissLoop]
    rw [wMissLoop_pos n (p + 4)]
    omega

theorem wMiss_pos (n p : Nat) : (wMiss n p).2 = p + 4 * n := by
  unfold wMiss
  split
  · simp only [wMissLoop_pos]; omega
  · omega

theorem wIdxLoop_run {mem : Int → Option Int} {D : Int} : ∀ {vs : List Ix} {p : Nat} {ls : List Nat} {x : Int}
    {st : List Int}, (∀ v ∈ vs, Plain mem v) →
    (∀ k l : Nat, ls[k]? = some l → mem (D + ((p + 4 * (k + 1) : Nat) : Int)) = some (l : Int)) →
    vs.length ≤ ls.length → wRun mem (wIdxLoop p vs).1 (x :: st, D) = some (horner x ls (vs.map Ix.val) :: st, D)
  | [], p, ls, x, st, _, _, _ => by cases ls <;> rfl
  | v :: vs, p, [], x, st, _, _, hl => by simp at hl
  | v :: vs, p, l :: ls, x, st, hp, hm, hl => by
    have h0 := hm 0 l (by simp)
    have ih := wIdxLoop_run (mem := mem) (D := D) (vs := vs) (p := p + 4) (ls := ls) (x := x * l + v.val) (st := st)
      (fun w hw => hp w (List.mem_cons_of_mem _ hw))
      (fun k l' hk => by
        have := hm (k + 1) l' (by simpa using hk)
        rw [← this]; congr 2; push_cast; ring) (by simpa using hl)
    simp only [wIdxLoop]
    rw [wRun_append, wRun_append, wRun_append]
    have e : wRun mem [.getIo, .load (p + 4), .mul] (x :: st, D) = some ((x * l) :: st, D) := by
      have h0' : mem (D + ((p + 4 : Nat) : Int)) = some (l : Int) := by simpa using h0
      simp only [wRun, wStep, h0']
    rw [e]
    simp only [Option.bind_some, hp v List.mem_cons_self _ _]
    have e2 : wRun mem [W.add] (v.val :: x * l :: st, D) = some ((x * l + v.val) :: st, D) := rfl
    rw [e2]
    simpa [horner] using ih

theorem wMissLoop_run {mem : Int → Option Int} {D : Int} : ∀ {n p : Nat} {ls : List Nat} {x : Int} {st : List Int},
    (∀ k l : Nat, ls[k]? = some l → mem (D + ((p + 4 * (k + 1) : Nat) : Int)) = some (l : Int)) → n = ls.length →
    wRun mem (wMissLoop n p).1 (x :: st, D) = some (x * ((ls.prod : Nat) : Int) :: st, D)
  | 0, p, ls, x, st, _, hn => by
    have : ls = [] := List.length_eq_zero_iff.1 hn.symm
    subst this
    simp [wMissLoop, wRun]
  | n + 1, p, [], x, st, _, hn => by simp at hn
  | n + 1, p, l :: ls, x, st, hm, hn => by
    have h0 := hm 0 l (by simp)
    have ih := wMissLoop_run (mem := mem) (D := D) (n := n) (p := p + 4) (ls := ls) (x := x * l) (st := st)
      (fun k l' hk => by
        have := hm (k + 1) l' (by simpa using hk)
        rw [← this]; congr 2; push_cast; ring) (by simpa using hn)
    simp only [wMissLoop]
    rw [wRun_append]
    have e : wRun mem [.getIo, .load (p + 4), .mul] (x :: st, D) = some ((x * l) :: st, D) := by
      have h0' : mem (D + ((p + 4 : Nat) : Int)) = some (l : Int) := by simpa using h0
      simp only [wRun, wStep, h0']
    rw [e, List.prod_cons]
    push_cast
    rw [← mul_assoc]
    exact ih

theorem wMiss_run {mem : Int → Option Int} {D : Int} {n p : Nat} {ls : List Nat} {st : List Int}
    (hm : ∀ k l : Nat, ls[k]? = some l → mem (D + ((p + 4 * (k + 1) : Nat) : Int)) = some (l : Int)) (hn : n = ls.length)
    (h0 : n > 0) : wRun mem (wMiss n p).1 (st, D) = some (((ls.prod : Nat) : Int) :: st, D) := by
  unfold wMiss
  rw [if_pos h0]
  match ls, n with
  | [], _ => simp at hn; omega
  | l :: ls, n + 1 =>
    have h1 := hm 0 l (by simp)
    have h1' : mem (D + ((p + 4 : Nat) : Int)) = some (l : Int) := by simpa using h1
    have ih := wMissLoop_run (mem := mem) (D := D) (n := n) (p := p + 4) (ls := ls) (x := (l : Int)) (st := st)
      (fun k l' hk => by
        have := hm (k + 1) l' (by simpa using hk)
        rw [← this]; congr 2; push_cast; ring) (by simpa using hn)
    show wRun mem ([W.getIo, .load (p + 4)] ++ (wMissLoop (n + 1 - 1) (p + 4)).1) (st, D) = _
    rw [wRun_append]
    have e : wRun mem [W.getIo, .load (p + 4)] (st, D) = some ((l : Int) :: st, D) := by
      simp only [wRun, wStep, h1']
    rw [e, List.prod_cons]
    push_cast
    exact ih

/-- Code of one list of indices up to the addition to the current offset. -/
theorem wIndexed_run {mem : Int → Option Int} {fb : Nat} {D : Int} {d : Def} (hD : DefAt mem fb D d) {v : Ix}
    {vs : List Ix} (hp : ∀ w ∈ v :: vs, Plain mem w) (hl : (v :: vs).length ≤ d.lengths.length) {cur : Int} {st : List Int} :
    wRun mem (v.code ++ (wIdxLoop 0 vs).1 ++ (wMiss (d.lengths.length - (v :: vs).length) (wIdxLoop 0 vs).2).1 ++
      [.const fb, .getIo, .load ((wMiss (d.lengths.length - (v :: vs).length) (wIdxLoop 0 vs).2).2 + 4), .mul] ++
      (if d.lengths.length - (v :: vs).length > 0 then [.mul] else []) ++ [.mul, .add]) (cur :: st, D) =
      some ((cur + off d.lengths ((v :: vs).map Ix.val) d.size * fb) :: st, D) := by
  match hd : d.lengths with
  | [] => rw [hd] at hl; simp at hl
  | d0 :: ls =>
    rw [hd] at hl
    have hlen : vs.length ≤ ls.length := by simpa using hl
    have hsz := hD.size (by rw [hd]; simp)
    rw [hd] at hsz
    have hlens : ∀ k l : Nat, ls[k]? = some l → mem (D + ((0 + 4 * (k + 1) : Nat) : Int)) = some (l : Int) := by
      intro k l hk
      have := hD.lens (k + 1) l (by omega) (by rw [hd]; simpa using hk)
      simpa using this
    have hloop := wIdxLoop_run (mem := mem) (D := D) (vs := vs) (p := 0) (ls := ls) (x := v.val) (st := cur :: st)
      (fun w hw => hp w (List.mem_cons_of_mem _ hw)) hlens hlen
    have hpos : (wMiss ((d0 :: ls).length - (v :: vs).length) (wIdxLoop 0 vs).2).2 + 4 = 4 * (d0 :: ls).length := by
      rw [wMiss_pos, wIdxLoop_pos]
      simp only [List.length_cons]
      omega
    have hlen' : (vs.map Ix.val).length ≤ ls.length := by simpa using hlen
    rw [hpos, List.map_cons, off_cons hlen', List.length_map]
    have hszrun : ∀ s' : List Int, wRun mem [.const fb, .getIo, .load (4 * (d0 :: ls).length), .mul] (s', D) =
        some (((fb : Int) * d.size) :: s', D) := by
      intro s'
      simp only [wRun, wStep, hsz]
    rw [wRun_append, wRun_append, wRun_append, wRun_append, wRun_append]
    have e1 : wRun mem v.code (cur :: st, D) = some (v.val :: cur :: st, D) := hp v List.mem_cons_self _ _
    rw [e1]
    simp only [Option.bind_some, hloop]
    by_cases hm : (d0 :: ls).length - (v :: vs).length > 0
    · have hmiss := wMiss_run (mem := mem) (D := D) (n := (d0 :: ls).length - (v :: vs).length) (p := (wIdxLoop 0 vs).2)
        (ls := ls.drop vs.length) (st := horner v.val ls (vs.map Ix.val) :: cur :: st)
        (fun k l hk => by
          rw [List.getElem?_drop] at hk
          have := hlens _ _ hk
          rw [← this, wIdxLoop_pos]
          congr 2; push_cast; ring) (by simp) hm
      rw [hmiss]
      rw [if_pos hm]
      simp only [Option.bind_some, hszrun]
      simp only [wRun, wStep, Option.bind_some]
      congr 3
      ring
    · have hz : (d0 :: ls).length - (v :: vs).length = 0 := by omega
      have hfull : vs.length = ls.length := by simp at hz; omega
      rw [hz]
      simp only [wMiss, gt_iff_lt, Nat.lt_irrefl, if_false]
      have e2 : wRun mem [] (horner v.val ls (vs.map Ix.val) :: cur :: st, D) = some (horner v.val ls (vs.map Ix.val) :: cur :: st, D) := rfl
      rw [e2]
      simp only [Option.bind_some, hszrun]
      simp only [wRun, wStep, Option.bind_some]
      rw [hfull]
      simp only [List.drop_length, List.prod_nil, Nat.cast_one, mul_one]
      congr 3
      ring

/-- Stack on which the code of the accesses starts: the current offset, with the bus number above it when the first access is
a field. -/
def Ready (d : Def) (accs : List Acc) (cur : Int) (st : List Int) : List Int :=
  if startsQual accs then ((d.bus.getD 0 : Nat) : Int) :: cur :: st else cur :: st

theorem wAccesses_run {mem : Int → Option Int} {fb bs : Nat} {buses : List (List Def)}
    (hb : ListsAt mem fb bs (buses.map some)) : ∀ {accs : List Acc} {d : Def} {done : Bool} {D : Int},
    (accs ≠ [] → startsQual accs = false → DefAt mem fb D d) → PlainAll mem accs → Typed buses done d accs →
    ∃ code r, wAccesses fb bs accs = .ok code ∧ pos buses d accs = some r ∧
      ∀ cur st, ∃ io', wRun mem code (Ready d accs cur st, D) = some ((cur + r * fb) :: st, io')
  | [], d, done, D, _, _, _ => ⟨[], 0, rfl, rfl, fun cur st => ⟨D, by simp [Ready, startsQual, wRun]⟩⟩
  | .indexed vs dim :: rest, d, done, D, hD, hpl, ht => by
    obtain ⟨_, rfl, h1, h2, h3, h4⟩ := ht
    have hD' := hD (by simp) rfl
    match vs, h1 with
    | v :: vs, _ =>
      have hsq : rest ≠ [] → startsQual rest = true := fun h => (h3.resolve_left h).2
      obtain ⟨code, r, hc, hr, hrun⟩ := wAccesses_run hb (accs := rest) (d := d) (done := true) (D := D)
        (fun h h' => absurd (hsq h) (by rw [h']; simp)) hpl.2 h4
      refine ⟨(v.code ++ (wIdxLoop 0 vs).1 ++ (wMiss (d.lengths.length - (v :: vs).length) (wIdxLoop 0 vs).2).1 ++
        [.const fb, .getIo, .load ((wMiss (d.lengths.length - (v :: vs).length) (wIdxLoop 0 vs).2).2 + 4), .mul] ++
        (if d.lengths.length - (v :: vs).length > 0 then [.mul] else []) ++ [.mul, .add]) ++
        (if rest ≠ [] then [.getIo, .load ((wMiss (d.lengths.length - (v :: vs).length) (wIdxLoop 0 vs).2).2 + 8)] else [])
        ++ code, off d.lengths ((v :: vs).map Ix.val) d.size + r, ?_, by simp [pos, hr], ?_⟩
      · simp only [wAccesses]
        rw [if_neg (by omega), if_neg, if_neg, hc]
        · rintro ⟨g1, g2⟩
          rw [hsq g1] at g2; simp at g2
        · rintro ⟨g1, g2⟩
          have := (h3.resolve_left g2).1
          omega
      · intro cur st
        have hrd : Ready d (.indexed (v :: vs) d.lengths.length :: rest) cur st = cur :: st := rfl
        rw [hrd, wRun_append, wRun_append, wIndexed_run hD' hpl.1 h2]
        simp only [Option.bind_some]
        by_cases hre : rest = []
        · subst hre
          simp only [wAccesses, Except.ok.injEq] at hc
          simp only [pos, Option.some.injEq] at hr
          subst hc; subst hr
          exact ⟨D, by simp [wRun]⟩
        · rw [if_pos hre]
          have hq := hsq hre
          -- the bus number is loaded from the definition
          match rest, hq, h4 with
          | .qualified f :: rest', _, h4 =>
            obtain ⟨hdone, b, fs, d', hb', _⟩ := h4
            have hbus := hD'.bus b hb'
            have hne : d.lengths ≠ [] := by
              intro he
              rw [he] at h2
              simp at h2
            rw [if_neg hne] at hbus
            have hpos : (wMiss (d.lengths.length - (v :: vs).length) (wIdxLoop 0 vs).2).2 + 8 =
                4 * (d.lengths.length + 1) := by
              rw [wMiss_pos, wIdxLoop_pos]
              simp only [List.length_cons] at h2 ⊢
              omega
            rw [hpos]
            obtain ⟨io', hio⟩ := hrun (cur + off d.lengths ((v :: vs).map Ix.val) d.size * fb) st
            refine ⟨io', ?_⟩
            have e : wRun mem [W.getIo, .load (4 * (d.lengths.length + 1))]
                ((cur + off d.lengths ((v :: vs).map Ix.val) d.size * ↑fb) :: st, D) =
                some (Ready d (.qualified f :: rest') (cur + off d.lengths ((v :: vs).map Ix.val) d.size * ↑fb) st, D) := by
              simp only [wRun, wStep, hbus]
              simp [Ready, startsQual, hb']
            rw [e]
            simp only [Option.bind_some, hio]
            congr 3
            ring
          | .indexed _ _ :: _, hq, _ => simp [startsQual] at hq
          | [], hq, _ => simp [startsQual] at hq
  | .qualified f :: rest, d, done, D, hD, hpl, ht => by
    obtain ⟨_, b, fs, d', hb', hbs, hfs, ht'⟩ := ht
    obtain ⟨A, hA, hAd⟩ := hb b fs (by simp [hbs])
    obtain ⟨D', hD', hdef⟩ := hAd f d' hfs
    obtain ⟨code, r, hc, hr, hrun⟩ := wAccesses_run hb (accs := rest) (d := d') (done := false) (D := D')
      (fun _ _ => hdef) hpl ht'
    refine ⟨_, (d'.offset : Int) + r, by simp only [wAccesses, hc]; rfl, by simp [pos, hb', hbs, hfs, hr], ?_⟩
    intro cur st
    have hrd : Ready d (.qualified f :: rest) cur st = (b : Int) :: cur :: st := by simp [Ready, startsQual, hb']
    rw [hrd]
    have e1 : wRun mem [W.const 4, .mul, .load bs, .load (f * 4)] ((b : Int) :: cur :: st, D) =
        some (D' :: cur :: st, D) := by
      have hA' : mem ((b : Int) * 4 + (bs : Int)) = some A := by
        rw [← hA]; congr 1; push_cast; ring
      have hD'' : mem (A + ((f * 4 : Nat) : Int)) = some D' := by
        rw [← hD']; congr 1; push_cast; ring
      simp only [wRun, wStep, hA', hD'']
    rw [wRun_append, wRun_append, wRun_append, wRun_append, e1]
    simp only [Option.bind_some]
    have hload : ∀ io, wRun mem [W.load 0, .add] (D' :: cur :: st, io) =
        some ((cur + ((d'.offset * fb : Nat) : Int)) :: st, io) := by
      intro io
      have ho : mem (D' + ((0 : Nat) : Int)) = some ((d'.offset * fb : Nat) : Int) := by
        rw [Nat.cast_zero, add_zero, hdef.offset]
      simp only [wRun, wStep, ho]
    by_cases hre : rest = []
    · subst hre
      simp only [wAccesses, Except.ok.injEq] at hc
      simp only [pos, Option.some.injEq] at hr
      subst hc; subst hr
      refine ⟨D, ?_⟩
      simp only [ne_eq, not_true_eq_false, if_false, startsQual, Bool.false_eq_true]
      rw [show wRun mem [] (D' :: cur :: st, D) = some (D' :: cur :: st, D) from rfl]
      simp only [Option.bind_some, hload]
      simp [wRun]
    · rw [if_pos hre]
      rw [show wRun mem [W.teeIo] (D' :: cur :: st, D) = some (D' :: cur :: st, D') from rfl]
      simp only [Option.bind_some, hload]
      obtain ⟨io', hio⟩ := hrun (cur + ((d'.offset * fb : Nat) : Int)) st
      refine ⟨io', ?_⟩
      have e : wRun mem (if startsQual rest = true then [W.getIo, .load 4] else [])
          ((cur + ((d'.offset * fb : Nat) : Int)) :: st, D') =
          some (Ready d' rest (cur + ((d'.offset * fb : Nat) : Int)) st, D') := by
        by_cases hq : startsQual rest = true
        · rw [if_pos hq]
          match rest, hq, ht' with
          | .qualified g :: rest', _, ht' =>
            obtain ⟨hdone, b2, _, _, hb2, _⟩ := ht'
            have hnil : d'.lengths = [] := by simpa using hdone
            have hbus := hdef.bus b2 hb2
            rw [if_pos hnil] at hbus
            have hbus' : mem (D' + ((4 : Nat) : Int)) = some (b2 : Int) := hbus
            simp only [wRun, wStep, hbus']
            simp [Ready, startsQual, hb2]
        · rw [if_neg hq]
          simp only [Bool.not_eq_true] at hq
          simp [Ready, hq, wRun]
      rw [e]
      simp only [Option.bind_some, hio]
      congr 3
      push_cast
      ring

theorem wMapped_run {mem : Int → Option Int} {fb ts bs : Nat} {io : List (Option (List Def))} {buses : List (List Def)}
    (hio : ListsAt mem fb ts io) (hb : ListsAt mem fb bs (buses.map some)) {t c : Nat} {ds : List Def} {d : Def}
    (ht : io[t]? = some (some ds)) (hc : ds[c]? = some d) {accs : List Acc} (hpl : PlainAll mem accs)
    (hty : Typed buses false d accs) :
    ∃ code r, wMapped fb ts bs c accs = .ok code ∧ pos buses d accs = some r ∧
      ∀ st l, ∃ l', wRun mem code ((t : Int) :: st, l) = some (((d.offset : Int) + r) * fb :: st, l') := by
  obtain ⟨A, hA, hAd⟩ := hio t ds ht
  obtain ⟨D, hD, hdef⟩ := hAd c d hc
  obtain ⟨code, r, hcode, hr, hrun⟩ := wAccesses_run hb (accs := accs) (d := d) (done := false) (D := D)
    (fun _ _ => hdef) hpl hty
  refine ⟨_, r, by simp only [wMapped, hcode]; rfl, hr, ?_⟩
  intro st l
  have e1 : wRun mem [W.const 4, .mul, .load ts, .load (c * 4)] ((t : Int) :: st, l) = some (D :: st, l) := by
    have hA' : mem ((t : Int) * 4 + (ts : Int)) = some A := by
      rw [← hA]; congr 1; push_cast; ring
    have hD'' : mem (A + ((c * 4 : Nat) : Int)) = some D := by
      rw [← hD]; congr 1; push_cast; ring
    simp only [wRun, wStep, hA', hD'']
  have ho : mem (D + ((0 : Nat) : Int)) = some ((d.offset * fb : Nat) : Int) := by
    rw [Nat.cast_zero, add_zero, hdef.offset]
  rw [wRun_append, e1]
  simp only [Option.bind_some]
  by_cases hre : accs.length = 0
  · rw [if_pos hre]
    have : accs = [] := List.length_eq_zero_iff.1 hre
    subst this
    simp only [pos, Option.some.injEq] at hr
    subst hr
    refine ⟨l, ?_⟩
    simp only [wRun, wStep, ho]
    simp
  · rw [if_neg hre, wRun_append, wRun_append]
    have e2 : wRun mem [W.teeIo, .load 0] (D :: st, l) = some (((d.offset * fb : Nat) : Int) :: st, D) := by
      simp only [wRun, wStep, ho]
    rw [e2]
    simp only [Option.bind_some]
    obtain ⟨io', hio'⟩ := hrun ((d.offset * fb : Nat) : Int) st
    refine ⟨io', ?_⟩
    have e : wRun mem (if startsQual accs = true then [W.getIo, .load 4] else [])
        (((d.offset * fb : Nat) : Int) :: st, D) = some (Ready d accs ((d.offset * fb : Nat) : Int) st, D) := by
      by_cases hq : startsQual accs = true
      · rw [if_pos hq]
        match accs, hq, hty with
        | .qualified g :: rest', _, hty =>
          obtain ⟨hdone, b2, _, _, hb2, _⟩ := hty
          have hnil : d.lengths = [] := by simpa using hdone
          have hbus := hdef.bus b2 hb2
          rw [if_pos hnil] at hbus
          have hbus' : mem (D + ((4 : Nat) : Int)) = some (b2 : Int) := hbus
          simp only [wRun, wStep, hbus']
          simp [Ready, startsQual, hb2]
      · rw [if_neg hq]
        simp only [Bool.not_eq_true] at hq
        simp [Ready, hq, wRun]
    rw [e]
    simp only [Option.bind_some, hio']
    congr 3
    push_cast
    ring

end Verif.Mapped
