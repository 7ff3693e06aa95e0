import Verif.Inputs
import Verif.HashMapLemmas
import Mathlib.Data.List.Nodup
import Mathlib.Tactic.Ring
import Std.Data.String.ToNat

/-! Facts about the layout of buses and the names of inputs. -/

set_option linter.unusedSimpArgs false

namespace Verif.Inputs

open Verif.HashMap

theorem foldl_prod (s : Nat) : ∀ dims : List Nat, dims.foldl (fun p c => p * c) s = s * prod dims := by
  intro dims
  induction dims generalizing s with
  | nil => simp [prod]
  | cons d ds ih =>
    have h1 := ih (s * d)
    have h2 := ih (1 * d)
    simp only [prod, List.foldl_cons] at *
    rw [h1, h2]; ring

theorem prod_cons (d : Nat) (ds : List Nat) : prod (d :: ds) = d * prod ds := by
  have := foldl_prod (1 * d) ds
  simp only [prod, List.foldl_cons] at *
  rw [this]; ring

/-- The leaves follow each other without gap from `s` to `e`. -/
def Tiles : Nat → List Leaf → Nat → Prop
  | s, [], e => s = e
  | s, l :: ls, e => l.start = s ∧ Tiles (s + l.size) ls e

theorem Tiles.append : ∀ {s m e : Nat} {l1 l2 : List Leaf}, Tiles s l1 m → Tiles m l2 e →
    Tiles s (l1 ++ l2) e
  | _, _, _, [], _, h1, h2 => by cases h1; exact h2
  | _, _, _, _ :: _, _, h1, h2 => ⟨h1.1, Tiles.append h1.2 h2⟩

theorem accLoop_snd (res1 : List (List Nat × Nat)) (elems : Nat)
    (h : res1.map Prod.snd = List.range elems) : ∀ (k i jump : Nat),
    (accLoop res1 elems k i jump).map Prod.snd = List.range' jump (k * elems)
  | 0, _, _ => by simp [accLoop]
  | k + 1, i, jump => by
    have ih := accLoop_snd res1 elems h k (i + 1) (jump + elems)
    simp only [accLoop, List.map_append, List.map_map, ih]
    have : res1.map (Prod.snd ∘ fun r => (i :: r.1, jump + r.2)) = List.range' jump elems := by
      have : (Prod.snd ∘ fun r : List Nat × Nat => (i :: r.1, jump + r.2)) =
          (fun x => jump + x) ∘ Prod.snd := rfl
      rw [this, ← List.map_map, h, List.range_eq_range', List.map_add_range']
      simp
    rw [this, Nat.succ_mul, Nat.add_comm (k * elems) elems, ← List.range'_append_1]

theorem accesses_snd : ∀ dims : List Nat,
    (accesses dims).map Prod.snd = List.range (prod dims)
  | [] => by simp [accesses, prod]
  | d :: ds => by
    rw [accesses, accLoop_snd _ _ (accesses_snd ds), prod_cons, List.range_eq_range']

theorem accLoop_fst {res1 : List (List Nat × Nat)} {elems n : Nat}
    (hl : ∀ r ∈ res1, r.1.length = n) (hn : (res1.map Prod.fst).Nodup) : ∀ (k i jump : Nat),
    (∀ r ∈ accLoop res1 elems k i jump, r.1.length = n + 1 ∧ ∃ x ∈ r.1.head?, i ≤ x) ∧
    ((accLoop res1 elems k i jump).map Prod.fst).Nodup
  | 0, _, _ => by simp [accLoop]
  | k + 1, i, jump => by
    obtain ⟨h1, h2⟩ := accLoop_fst hl hn k (i + 1) (jump + elems)
    constructor
    · intro r hr
      simp only [accLoop, List.mem_append, List.mem_map] at hr
      rcases hr with ⟨r', hr', rfl⟩ | hr
      · exact ⟨by simp [hl r' hr'], i, by simp, le_rfl⟩
      · obtain ⟨hlen, x, hx, hix⟩ := h1 r hr
        exact ⟨hlen, x, hx, by omega⟩
    · simp only [accLoop, List.map_append, List.map_map, List.nodup_append]
      refine ⟨?_, h2, ?_⟩
      · have : (Prod.fst ∘ fun r : List Nat × Nat => (i :: r.1, jump + r.2)) =
          (fun x => i :: x) ∘ Prod.fst := rfl
        rw [this, ← List.map_map]
        exact hn.map (fun a b hab => (List.cons.inj hab).2)
      · intro a ha b hb hab
        simp only [List.mem_map] at ha hb
        obtain ⟨r, _, rfl⟩ := ha
        obtain ⟨r', hr', rfl⟩ := hb
        obtain ⟨_, x, hx, hix⟩ := h1 r' hr'
        rw [← hab] at hx
        simp at hx
        omega

theorem accesses_fst : ∀ dims : List Nat,
    (∀ r ∈ accesses dims, r.1.length = dims.length) ∧ ((accesses dims).map Prod.fst).Nodup
  | [] => by simp [accesses]
  | d :: ds => by
    obtain ⟨h1, h2⟩ := accesses_fst ds
    obtain ⟨h3, h4⟩ := accLoop_fst (elems := prod ds) h1 h2 d 0 0
    exact ⟨fun r hr => by simpa using (h3 r hr).1, h4⟩

/-- The names of the leaves are distinct and properly extend `p`; their segments are as `ok` says. -/
def Fresh (ok : Seg → Prop) (p : List Seg) (x : List Leaf) : Prop :=
  (x.map Leaf.path).Nodup ∧ ∀ l ∈ x, ∃ q, l.path = p ++ q ∧ q ≠ [] ∧ ∀ g ∈ q, ok g

theorem overAccesses_spec {ok : Seg → Prop} (hok : ∀ i, ok (.idx i))
    {rec : Nat → List Seg → Except InErr (List Leaf)} {size n : Nat}
    (hrec : ∀ st p, ∃ x, rec st p = .ok x ∧ Tiles st x (st + size) ∧ Fresh ok p x)
    (start : Nat) (path : List Seg) : ∀ (as : List (List Nat × Nat)) (a k : Nat),
    as.map Prod.snd = List.range' a k → (∀ r ∈ as, r.1.length = n) → (as.map Prod.fst).Nodup →
    ∃ y, overAccesses rec start size path as = .ok y ∧
      Tiles (start + a * size) y (start + (a + k) * size) ∧ Fresh ok path y ∧
      ∀ l ∈ y, ∃ r ∈ as, ∃ q, l.path = path ++ r.1.map Seg.idx ++ q
  | [], a, k, h, _, _ => by
    have : k = 0 := by
      cases k with
      | zero => rfl
      | succ k => simp [List.range'] at h
    subst this
    exact ⟨[], rfl, rfl, ⟨by simp, by simp⟩, by simp⟩
  | (ix, s) :: as, a, k, h, hl, hn => by
    cases k with
    | zero => simp at h
    | succ k =>
      simp only [List.map_cons, List.range'_succ, List.cons.injEq] at h
      obtain ⟨hs, htl⟩ := h
      subst hs
      simp only [List.map_cons, List.nodup_cons] at hn
      obtain ⟨x, hx, htx, hfx1, hfx2⟩ := hrec (start + s * size) (path ++ ix.map Seg.idx)
      obtain ⟨y, hy, hty, ⟨hfy1, hfy2⟩, hfy3⟩ := overAccesses_spec hok hrec start path as (s + 1) k htl
        (fun r hr => hl r (by simp [hr])) hn.2
      refine ⟨x ++ y, by simp [overAccesses, hx, hy], ?_, ⟨?_, ?_⟩, ?_⟩
      · have e1 : start + s * size + size = start + (s + 1) * size := by ring
        have e2 : s + 1 + k = s + (k + 1) := by omega
        rw [e1] at htx
        rw [e2] at hty
        exact htx.append hty
      · rw [List.map_append, List.nodup_append]
        refine ⟨hfx1, hfy1, ?_⟩
        intro u hu v hv huv
        simp only [List.mem_map] at hu hv
        obtain ⟨l, hlx, rfl⟩ := hu
        obtain ⟨l', hly, rfl⟩ := hv
        obtain ⟨q, hq, _⟩ := hfx2 l hlx
        obtain ⟨r, hr, q', hq'⟩ := hfy3 l' hly
        rw [hq, hq', List.append_assoc, List.append_assoc] at huv
        have h1 := List.append_cancel_left huv
        have hlen : (ix.map Seg.idx).length = (r.1.map Seg.idx).length := by
          simp [hl (ix, s) (by simp), hl r (by simp [hr])]
        have h2 := (List.append_inj h1 hlen).1
        have h3 : ix = r.1 :=
          List.map_injective_iff.mpr (fun a b hab => Seg.idx.inj hab) h2
        exact hn.1 (h3 ▸ List.mem_map_of_mem hr)
      · intro l hlm
        rw [List.mem_append] at hlm
        rcases hlm with hlm | hlm
        · obtain ⟨q, hq, hne, hqok⟩ := hfx2 l hlm
          refine ⟨ix.map Seg.idx ++ q, by rw [hq, List.append_assoc], by simp [hne], ?_⟩
          intro g hg
          rw [List.mem_append, List.mem_map] at hg
          rcases hg with ⟨i, _, rfl⟩ | hg
          · exact hok i
          · exact hqok g hg
        · exact hfy2 l hlm
      · intro l hlm
        rw [List.mem_append] at hlm
        rcases hlm with hlm | hlm
        · obtain ⟨q, hq, _⟩ := hfx2 l hlm
          exact ⟨(ix, s), by simp, q, hq⟩
        · obtain ⟨r, hr, q, hq⟩ := hfy3 l hlm
          exact ⟨r, by simp [hr], q, hq⟩

theorem overFields_spec {ok : Seg → Prop} (hok : ∀ i, ok (.idx i))
    {size : Nat → Except InErr Nat} {rec : Nat → Nat → List Seg → Except InErr (List Leaf)}
    (hrec : ∀ b s, size b = .ok s →
      ∀ st p, ∃ x, rec b st p = .ok x ∧ Tiles st x (st + s) ∧ Fresh ok p x)
    (start : Nat) (path : List Seg) : ∀ (fields : List Field) (is : List FInfo) (ds : List FData)
      (off total : Nat),
    layFields size fields off = .ok (is, total) → fieldData is = .ok ds →
    (fields.map Field.name).Nodup → (∀ f ∈ fields, ok (.field f.name)) →
    ∃ y, overFields rec start path ds = .ok y ∧ Tiles (start + off) y (start + total) ∧
      Fresh ok path y ∧ ∀ l ∈ y, ∃ f ∈ fields, ∃ q, l.path = path ++ [Seg.field f.name] ++ q
  | [], is, ds, off, total, h, hd, _, _ => by
    simp only [layFields, Except.ok.injEq, Prod.mk.injEq] at h
    obtain ⟨rfl, rfl⟩ := h
    simp only [fieldData, Except.ok.injEq] at hd
    subst hd
    exact ⟨[], rfl, rfl, ⟨by simp, by simp⟩, by simp⟩
  | f :: fs, is, ds, off, total, h, hd, hn, hf => by
    simp only [layFields] at h
    split at h
    · cases h
    · rename_i s hs
      split at h
      · cases h
      · rename_i is' total' hlay
        simp only [Except.ok.injEq, Prod.mk.injEq] at h
        obtain ⟨rfl, rfl⟩ := h
        simp only [fieldData] at hd
        split at hd
        · cases hd
        · rename_i hp0
          split at hd
          · cases hd
          · rename_i ds' hds'
            simp only [Except.ok.injEq] at hd
            subst hd
            simp only [List.map_cons, List.nodup_cons] at hn
            obtain ⟨y, hy, hty, ⟨hfy1, hfy2⟩, hfy3⟩ := overFields_spec hok hrec start path fs is' ds'
              _ total' hlay hds' hn.2 (fun g hg => hf g (by simp [hg]))
            have hdiv : f.dims.foldl (fun p c => p * c) s / prod f.dims = s := by
              rw [foldl_prod, Nat.mul_div_cancel _ (by omega)]
            have hmul := foldl_prod s f.dims
            -- the leaves of this field
            have hx : ∃ x, fieldLeaves rec start path ⟨f.name, f.dims, s, off, f.bus⟩ = Except.ok x ∧
                Tiles (start + off) x (start + (off + s * prod f.dims)) ∧
                (x.map Leaf.path).Nodup ∧
                ∀ l ∈ x, ∃ q, l.path = path ++ [Seg.field f.name] ++ q ∧ ∀ g ∈ q, ok g := by
              cases hb : f.bus with
              | none =>
                refine ⟨[⟨path ++ [Seg.field f.name], start + off,
                  f.dims.foldl (fun p c => p * c) s⟩], by simp only [fieldLeaves], ⟨rfl, ?_⟩,
                  by simp, ?_⟩
                · simp only [hmul, Tiles]; omega
                · intro l hl
                  simp only [List.mem_singleton] at hl
                  subst hl
                  exact ⟨[], by simp, by simp⟩
              | some b =>
                simp only [unitSize, hb] at hs
                obtain ⟨x, hx, htx, ⟨hfx1, hfx2⟩, _⟩ := overAccesses_spec hok (hrec b s hs)
                  (n := f.dims.length) (start + off) (path ++ [Seg.field f.name]) (accesses f.dims) 0
                  (prod f.dims) (by rw [accesses_snd, List.range_eq_range'])
                  (accesses_fst f.dims).1 (accesses_fst f.dims).2
                refine ⟨x, by simp only [fieldLeaves]; exact hx, ?_, hfx1, ?_⟩
                · have e1 : start + off + 0 * s = start + off := by ring
                  have e2 : start + off + (0 + prod f.dims) * s = start + (off + s * prod f.dims) := by
                    ring
                  rw [e1, e2] at htx
                  exact htx
                · intro l hl
                  obtain ⟨q, hq, _, hqok⟩ := hfx2 l hl
                  exact ⟨q, hq, hqok⟩
            obtain ⟨x, hx, htx, hnx, hpx⟩ := hx
            rw [hmul] at hty
            refine ⟨x ++ y, ?_, htx.append hty, ⟨?_, ?_⟩, ?_⟩
            · simp only [overFields, hdiv]
              rw [hx]
              simp only [hy]
            · rw [List.map_append, List.nodup_append]
              refine ⟨hnx, hfy1, ?_⟩
              intro u hu v hv huv
              simp only [List.mem_map] at hu hv
              obtain ⟨l, hlx, rfl⟩ := hu
              obtain ⟨l', hly, rfl⟩ := hv
              obtain ⟨q, hq, _⟩ := hpx l hlx
              obtain ⟨f', hf', q', hq'⟩ := hfy3 l' hly
              rw [hq, hq', List.append_assoc, List.append_assoc] at huv
              have h1 := List.append_cancel_left huv
              simp only [List.cons_append, List.nil_append, List.cons.injEq, Seg.field.injEq] at h1
              exact hn.1 (h1.1 ▸ List.mem_map_of_mem hf')
            · intro l hlm
              rw [List.mem_append] at hlm
              rcases hlm with hlm | hlm
              · obtain ⟨q, hq, hqok⟩ := hpx l hlm
                refine ⟨Seg.field f.name :: q, by rw [hq]; simp, by simp, ?_⟩
                intro g hg
                rw [List.mem_cons] at hg
                rcases hg with rfl | hg
                · exact hf f (by simp)
                · exact hqok g hg
              · exact hfy2 l hlm
            · intro l hlm
              rw [List.mem_append] at hlm
              rcases hlm with hlm | hlm
              · obtain ⟨q, hq, _⟩ := hpx l hlm
                exact ⟨f, by simp, q, hq⟩
              · obtain ⟨f', hf', q, hq⟩ := hfy3 l hlm
                exact ⟨f', by simp [hf'], q, hq⟩

theorem layFields_mono {s1 s2 : Nat → Except InErr Nat}
    (h : ∀ b n, s1 b = .ok n → s2 b = .ok n) : ∀ (fs : List Field) (off : Nat) (r : List FInfo × Nat),
    layFields s1 fs off = .ok r → layFields s2 fs off = .ok r
  | [], _, _, hr => hr
  | f :: fs, off, r, hr => by
    simp only [layFields] at hr ⊢
    split at hr
    · cases hr
    · rename_i s hs
      have hs2 : unitSize s2 f = Except.ok s := by
        unfold unitSize at hs ⊢
        cases hb : f.bus with
        | none => rw [hb] at hs; exact hs
        | some b => rw [hb] at hs; exact h b s hs
      rw [hs2]
      split at hr
      · cases hr
      · rename_i is total hlay
        simp only [layFields_mono h fs _ _ hlay]
        exact hr

theorem buildBus_mono (buses : List (List Field)) : ∀ (fuel b : Nat) (r : List FInfo × Nat),
    buildBus buses fuel b = .ok r → buildBus buses (fuel + 1) b = .ok r
  | 0, _, _, h => by cases h
  | fuel + 1, b, r, h => by
    rw [buildBus] at h ⊢
    split at h
    · cases h
    · rename_i fields hf
      refine layFields_mono ?_ _ _ _ h
      intro b' n hn
      split at hn
      · cases hn
      · rename_i is m hm
        rw [buildBus_mono buses fuel b' _ hm]
        exact hn

theorem buildBus_mono_le (buses : List (List Field)) {f1 f2 b : Nat} {r : List FInfo × Nat}
    (hle : f1 ≤ f2) (h : buildBus buses f1 b = .ok r) : buildBus buses f2 b = .ok r := by
  obtain ⟨k, rfl⟩ := Nat.exists_eq_add_of_le hle
  clear hle
  induction k with
  | zero => exact h
  | succ k ih => exact buildBus_mono buses _ _ _ ih

theorem fieldMapFrom_get {buses : List (List Field)} {fuel : Nat} : ∀ (bs : List Nat)
    (fm : List (List FData)), fieldMapFrom buses fuel bs = .ok fm → ∀ (k b : Nat), bs[k]? = some b →
    ∃ is n ds, buildBus buses fuel b = .ok (is, n) ∧ fieldData is = .ok ds ∧ fm[k]? = some ds
  | [], _, _, k, b, hk => by simp at hk
  | b0 :: bs, fm, h, k, b, hk => by
    simp only [fieldMapFrom] at h
    split at h
    · cases h
    · rename_i is n hb
      split at h
      · cases h
      · rename_i d hd
        split at h
        · cases h
        · rename_i ds hds
          simp only [Except.ok.injEq] at h
          subst h
          cases k with
          | zero =>
            simp only [List.getElem?_cons_zero, Option.some.injEq] at hk
            subst hk
            exact ⟨is, n, d, hb, hd, rfl⟩
          | succ k =>
            simp only [List.getElem?_cons_succ] at hk ⊢
            exact fieldMapFrom_get bs ds hds k b hk

/-- Every bus can be laid out and its leaves follow each other over its size. -/
theorem qualified_spec {ok : Seg → Prop} (hok : ∀ i, ok (.idx i)) {buses : List (List Field)}
    {fm : List (List FData)} {F : Nat} (hfm : fieldMap buses F = .ok fm)
    (hn : ∀ fields ∈ buses, (fields.map Field.name).Nodup ∧ ∀ f ∈ fields, ok (.field f.name)) :
    ∀ (fuel b : Nat) (is : List FInfo) (n : Nat), fuel ≤ F → buildBus buses fuel b = .ok (is, n) →
    ∀ st p, ∃ x, qualified fm fuel b st p = .ok x ∧ Tiles st x (st + n) ∧ Fresh ok p x
  | 0, _, _, _, _, h, _, _ => by cases h
  | fuel + 1, b, is, n, hle, h, st, p => by
    have h' := h
    rw [buildBus] at h
    split at h
    · cases h
    · rename_i fields hf
      have hblt : b < buses.length := (List.getElem?_eq_some_iff.mp hf).1
      have hmem : fields ∈ buses := List.mem_of_getElem? hf
      obtain ⟨is', n', ds, hb', hds, hget⟩ := fieldMapFrom_get _ _ hfm b b
        (by rw [List.getElem?_range hblt])
      have := buildBus_mono_le buses hle h'
      rw [this] at hb'
      simp only [Except.ok.injEq, Prod.mk.injEq] at hb'
      obtain ⟨rfl, rfl⟩ := hb'
      obtain ⟨y, hy, hty, hfy, _⟩ := overFields_spec hok (rec := qualified fm fuel) (by
        intro b' s hs st' p'
        split at hs
        · cases hs
        · rename_i is2 n2 hb2
          simp only [Except.ok.injEq] at hs
          subst hs
          exact qualified_spec hok hfm hn fuel b' is2 n2 (by omega) hb2 st' p')
        st p fields is ds 0 n h hds (hn fields hmem).1 (hn fields hmem).2
      refine ⟨y, ?_, by simpa using hty, hfy⟩
      simp only [qualified, hget, hy]

/-! Names as text. -/

/-- A character of an identifier (lang.lalrpop:846-848). -/
def IdChar (c : Char) : Prop := c.isAlphanum = true ∨ c = '$' ∨ c = '_'

def Ident (s : String) : Prop := ∀ c ∈ s.toList, IdChar c

theorem IdChar.ne {c : Char} (h : IdChar c) : c ≠ '.' ∧ c ≠ '[' := by
  constructor <;> rintro rfl <;> rcases h with h | h | h <;> revert h <;> decide

/-- No character of `l` begins a segment. -/
def Plain (l : List Char) : Prop := ∀ c ∈ l, c ≠ '.' ∧ c ≠ '['

/-- Nothing, or a text beginning with a segment. -/
def Begins (l : List Char) : Prop := l = [] ∨ ∃ c r, l = c :: r ∧ (c = '.' ∨ c = '[')

theorem split_plain : ∀ {u v x y : List Char}, Plain u → Plain v → Begins x → Begins y →
    u ++ x = v ++ y → u = v ∧ x = y
  | [], [], _, _, _, _, _, _, h => ⟨rfl, h⟩
  | [], c :: v, x, y, _, hv, hx, _, h => by
    simp only [List.nil_append, List.cons_append] at h
    rcases hx with rfl | ⟨d, r, rfl, hd⟩
    · cases h
    · have := (List.cons.inj h).1
      subst this
      have := hv d (by simp)
      rcases hd with hd | hd
      · exact absurd hd this.1
      · exact absurd hd this.2
  | c :: u, [], x, y, hu, _, _, hy, h => by
    simp only [List.nil_append, List.cons_append] at h
    rcases hy with rfl | ⟨d, r, rfl, hd⟩
    · cases h
    · have := (List.cons.inj h).1
      subst this
      have := hu c (by simp)
      rcases hd with hd | hd
      · exact absurd hd this.1
      · exact absurd hd this.2
  | c :: u, d :: v, x, y, hu, hv, hx, hy, h => by
    simp only [List.cons_append, List.cons.injEq] at h
    obtain ⟨rfl, h⟩ := h
    obtain ⟨h1, h2⟩ := split_plain (fun c hc => hu c (by simp [hc])) (fun c hc => hv c (by simp [hc]))
      hx hy h
    exact ⟨by rw [h1], h2⟩

/-- The names of fields are identifiers. -/
def SegOk : Seg → Prop
  | .field n => Ident n
  | .idx _ => True

/-- The characters of a segment after the first. -/
def segBody : Seg → List Char
  | .field n => n.toList
  | .idx i => (Nat.repr i).toList ++ [']']

def segHead : Seg → Char
  | .field _ => '.'
  | .idx _ => '['

theorem renderSeg_toList (g : Seg) : (renderSeg g).toList = segHead g :: segBody g := by
  cases g <;> simp [renderSeg, segHead, segBody]

theorem plain_repr (i : Nat) : Plain (Nat.repr i).toList := by
  intro c hc
  have hd : c.isDigit = true := by
    rw [Nat.toList_repr] at hc
    exact Nat.isDigit_of_mem_toDigits (by decide) (by decide) hc
  constructor <;> rintro rfl <;> revert hd <;> decide

theorem segBody_plain {g : Seg} (h : SegOk g) : Plain (segBody g) := by
  cases g with
  | field n => exact fun c hc => (h c hc).ne
  | idx i =>
    intro c hc
    simp only [segBody, List.mem_append, List.mem_singleton] at hc
    rcases hc with hc | rfl
    · exact plain_repr i c hc
    · decide

theorem segBody_inj {g g' : Seg} (hh : segHead g = segHead g') (h : segBody g = segBody g') : g = g' := by
  cases g <;> cases g' <;> simp only [segHead, segBody] at hh h
  · rw [String.toList_inj] at h; rw [h]
  · exact absurd hh (by decide)
  · exact absurd hh (by decide)
  · have := List.append_cancel_right h
    rw [String.toList_inj] at this
    rw [Nat.repr_injective this]

def pathChars : List Seg → List Char
  | [] => []
  | g :: gs => segHead g :: (segBody g ++ pathChars gs)

theorem render_toList (base : String) : ∀ path : List Seg,
    (render base path).toList = base.toList ++ pathChars path := by
  intro path
  induction path generalizing base with
  | nil => simp [render, pathChars]
  | cons g gs ih =>
    have : render base (g :: gs) = render (base ++ renderSeg g) gs := rfl
    rw [this, ih, String.toList_append, renderSeg_toList]
    simp [pathChars]

theorem pathChars_begins (path : List Seg) : Begins (pathChars path) := by
  cases path with
  | nil => exact .inl rfl
  | cons g gs => exact .inr ⟨segHead g, _, rfl, by cases g <;> simp [segHead]⟩

theorem pathChars_inj : ∀ {p q : List Seg}, (∀ g ∈ p, SegOk g) → (∀ g ∈ q, SegOk g) →
    pathChars p = pathChars q → p = q
  | [], [], _, _, _ => rfl
  | [], _ :: _, _, _, h => by cases h
  | _ :: _, [], _, _, h => by cases h
  | g :: p, g' :: q, hp, hq, h => by
    simp only [pathChars, List.cons.injEq] at h
    obtain ⟨hh, hb⟩ := h
    obtain ⟨h1, h2⟩ := split_plain (segBody_plain (hp g (by simp))) (segBody_plain (hq g' (by simp)))
      (pathChars_begins p) (pathChars_begins q) hb
    rw [segBody_inj hh h1, pathChars_inj (fun g hg => hp g (by simp [hg]))
      (fun g hg => hq g (by simp [hg])) h2]

/-- Different names have different texts. -/
theorem render_inj {b b' : String} {p q : List Seg} (hb : Ident b) (hb' : Ident b')
    (hp : ∀ g ∈ p, SegOk g) (hq : ∀ g ∈ q, SegOk g) (h : render b p = render b' q) :
    b = b' ∧ p = q := by
  have h' := congrArg String.toList h
  rw [render_toList, render_toList] at h'
  obtain ⟨h1, h2⟩ := split_plain (fun c hc => (hb c hc).ne) (fun c hc => (hb' c hc).ne)
    (pathChars_begins p) (pathChars_begins q) h'
  exact ⟨String.toList_inj.mp h1, pathChars_inj hp hq h2⟩

end Verif.Inputs
