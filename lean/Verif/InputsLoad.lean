import Verif.InputsLemmas
import Mathlib.Order.Interval.Finset.Nat
import Mathlib.Data.Finset.Card

/-! Facts about the list of main inputs and the loading of values. -/

set_option linter.unusedSimpArgs false

namespace Verif.Inputs

open Verif.HashMap

/-- Ranges `(start, size)` that follow each other without gap from `s` to `e`. -/
def Covers : Nat → List (Nat × Nat) → Nat → Prop
  | s, [], e => s = e
  | s, r :: rs, e => r.1 = s ∧ Covers (s + r.2) rs e

theorem Covers.append : ∀ {s m e : Nat} {l1 l2 : List (Nat × Nat)}, Covers s l1 m → Covers m l2 e →
    Covers s (l1 ++ l2) e
  | _, _, _, [], _, h1, h2 => by cases h1; exact h2
  | _, _, _, _ :: _, _, h1, h2 => ⟨h1.1, Covers.append h1.2 h2⟩

theorem Tiles.covers (d : Decl) : ∀ {s e : Nat} {l : List Leaf}, Tiles s l e →
    Covers s ((l.map (toInfo d)).map fun i => (i.start, i.size)) e
  | _, _, [], h => h
  | _, _, _ :: _, h => ⟨h.1, Tiles.covers d h.2⟩

theorem Covers.le : ∀ {s e : Nat} {l : List (Nat × Nat)}, Covers s l e → s ≤ e
  | _, _, [], h => by cases h; exact le_rfl
  | _, _, _ :: _, h => by have := Covers.le h.2; omega

/-- Every place between `s` and `e` is in exactly one of the ranges. -/
theorem Covers.unique : ∀ {s e : Nat} {l : List (Nat × Nat)}, Covers s l e → ∀ k, s ≤ k → k < e →
    ∃! n : Nat, ∃ r : Nat × Nat, l[n]? = some r ∧ r.1 ≤ k ∧ k < r.1 + r.2
  | _, _, [], h, k, h1, h2 => by cases h; omega
  | s, e, r :: rs, h, k, h1, h2 => by
    by_cases hk : k < s + r.2
    · refine ⟨0, ⟨r, rfl, by have := h.1; omega, by have := h.1; omega⟩, ?_⟩
      rintro n ⟨r', hr', h3, h4⟩
      cases n with
      | zero => rfl
      | succ n =>
        exfalso
        simp only [List.getElem?_cons_succ] at hr'
        have : ∀ {s e : Nat} {l : List (Nat × Nat)}, Covers s l e → ∀ (n : Nat) (r : Nat × Nat), l[n]? = some r → s ≤ r.1 := by
          intro s e l
          induction l generalizing s with
          | nil => intro _ n r hr; simp at hr
          | cons a l ih =>
            intro hc n r hr
            cases n with
            | zero => simp at hr; subst hr; have := hc.1; omega
            | succ n => have := ih hc.2 n r (by simpa using hr); omega
        have := this h.2 n r' hr'
        omega
    · obtain ⟨n, ⟨r', hr', h3⟩, hun⟩ := Covers.unique h.2 k (by omega) h2
      refine ⟨n + 1, ⟨r', by simpa using hr', h3⟩, ?_⟩
      rintro m ⟨r'', hr'', h4, h5⟩
      cases m with
      | zero =>
        simp only [List.getElem?_cons_zero, Option.some.injEq] at hr''
        subst hr''
        have := h.1
        omega
      | succ m =>
        rw [hun m ⟨r'', by simpa using hr'', h4, h5⟩]

/-- What the compiler knows of a declared bus input: its size is the size of its elements times their
number, and there is an element. -/
def DeclOk (buses : List (List Field)) (F : Nat) (d : Decl) : Prop :=
  Ident d.name ∧ ∀ b, d.bus = some b → prod d.dims ≠ 0 ∧
    ∃ is n, buildBus buses F b = .ok (is, n) ∧ d.size = n * prod d.dims

theorem declLeaves_spec {buses : List (List Field)} {fm : List (List FData)} {F : Nat}
    (hfm : fieldMap buses F = .ok fm)
    (hn : ∀ fields ∈ buses, (fields.map Field.name).Nodup ∧ ∀ f ∈ fields, Ident f.name)
    {d : Decl} (hd : DeclOk buses F d) :
    ∃ x, declLeaves fm F d = .ok x ∧ Tiles d.start x (d.start + d.size) ∧ (x.map Leaf.path).Nodup ∧
      (∀ l ∈ x, ∀ g ∈ l.path, SegOk g) ∧
      (d.bus = none → x = [⟨[], d.start, d.size⟩]) ∧ (d.bus ≠ none → ∀ l ∈ x, l.path ≠ []) := by
  cases hb : d.bus with
  | none =>
    refine ⟨[⟨[], d.start, d.size⟩], by simp [declLeaves, hb], ⟨rfl, rfl⟩, by simp, by simp, by simp,
      by simp⟩
  | some b =>
    obtain ⟨h0, is, n, hbb, hsz⟩ := hd.2 b hb
    obtain ⟨x, hx, htx, ⟨hfx1, hfx2⟩, _⟩ := overAccesses_spec (ok := SegOk) (fun _ => trivial)
      (rec := qualified fm F b) (size := n) (n := d.dims.length)
      (qualified_spec (fun _ => trivial) hfm hn F b is n le_rfl hbb) d.start [] (accesses d.dims) 0
      (prod d.dims) (by rw [accesses_snd, List.range_eq_range'])
      (accesses_fst d.dims).1 (accesses_fst d.dims).2
    have hdiv : d.size / prod d.dims = n := by rw [hsz, Nat.mul_div_cancel _ (by omega)]
    refine ⟨x, by simp only [declLeaves, hb, busLeaves, h0, if_false, hdiv, hx], ?_, hfx1, ?_, ?_, ?_⟩
    · have e1 : d.start + 0 * n = d.start := by ring
      have e2 : d.start + (0 + prod d.dims) * n = d.start + d.size := by rw [hsz]; ring
      rw [e1, e2] at htx
      exact htx
    · intro l hl g hg
      obtain ⟨q, hq, _, hqok⟩ := hfx2 l hl
      rw [hq] at hg
      exact hqok g (by simpa using hg)
    · intro h; cases h
    · intro _ l hl
      obtain ⟨q, hq, hne, _⟩ := hfx2 l hl
      rw [hq]
      simpa using hne

theorem withQualifiers_spec {buses : List (List Field)} {fm : List (List FData)} {F : Nat}
    (hfm : fieldMap buses F = .ok fm)
    (hn : ∀ fields ∈ buses, (fields.map Field.name).Nodup ∧ ∀ f ∈ fields, Ident f.name) :
    ∀ (ds : List Decl), (∀ d ∈ ds, DeclOk buses F d) → (ds.map Decl.name).Nodup →
    ∃ l, withQualifiers fm F ds = .ok l ∧
      (∀ s e, Covers s (ds.map fun d => (d.start, d.size)) e →
        Covers s (l.map fun i => (i.start, i.size)) e) ∧
      (l.map Info.name).Nodup ∧
      (∀ i ∈ l, ∃ d ∈ ds, ∃ q, (∀ g ∈ q, SegOk g) ∧ i.name = render d.name q ∧ (q = [] ↔ d.bus = none) ∧
        (q = [] → i.start = d.start ∧ i.size = d.size)) ∧
      (∀ d ∈ ds, d.bus = none → ⟨d.name, d.start, d.size⟩ ∈ l)
  | [], _, _ => ⟨[], rfl, fun _ _ h => h, by simp, by simp, by simp⟩
  | d :: ds, hd, hnd => by
    simp only [List.map_cons, List.nodup_cons] at hnd
    obtain ⟨x, hx, htx, hpx, hgx, hnone, hsome⟩ := declLeaves_spec hfm hn (hd d (by simp))
    obtain ⟨l, hl, hcl, hnl, hil, hbl⟩ := withQualifiers_spec hfm hn ds
      (fun d' h => hd d' (by simp [h])) hnd.2
    have hidx : ∀ i ∈ x.map (toInfo d), ∃ q, (∀ g ∈ q, SegOk g) ∧ i.name = render d.name q ∧
        (q = [] ↔ d.bus = none) ∧ (q = [] → i.start = d.start ∧ i.size = d.size) := by
      intro i hi
      rw [List.mem_map] at hi
      obtain ⟨lf, hlf, rfl⟩ := hi
      refine ⟨lf.path, hgx lf hlf, rfl, ?_, ?_⟩
      · constructor
        · intro hq
          by_contra hb
          exact hsome hb lf hlf hq
        · intro hb
          rw [hnone hb] at hlf
          simp only [List.mem_singleton] at hlf
          rw [hlf]
      · intro hq
        by_cases hb : d.bus = none
        · rw [hnone hb] at hlf
          simp only [List.mem_singleton] at hlf
          rw [hlf]
          exact ⟨rfl, rfl⟩
        · exact absurd hq (hsome hb lf hlf)
    refine ⟨x.map (toInfo d) ++ l, by simp only [withQualifiers, hx, hl], ?_, ?_, ?_, ?_⟩
    · intro s e hc
      obtain ⟨hs, hc⟩ := hc
      simp only at hs
      rw [List.map_append]
      subst hs
      exact (htx.covers d).append (hcl _ _ hc)
    · rw [List.map_append, List.nodup_append]
      refine ⟨?_, hnl, ?_⟩
      · rw [List.map_map]
        have : (Info.name ∘ toInfo d) = (render d.name) ∘ Leaf.path := rfl
        rw [this, ← List.map_map]
        refine List.Nodup.map_on ?_ hpx
        intro p hp q hq heq
        rw [List.mem_map] at hp hq
        obtain ⟨lp, hlp, rfl⟩ := hp
        obtain ⟨lq, hlq, rfl⟩ := hq
        exact (render_inj (hd d (by simp)).1 (hd d (by simp)).1 (hgx lp hlp) (hgx lq hlq) heq).2
      · intro u hu v hv huv
        rw [List.mem_map] at hu hv
        obtain ⟨i, hi, rfl⟩ := hu
        obtain ⟨j, hj, rfl⟩ := hv
        obtain ⟨q, hq, hqn, _⟩ := hidx i hi
        obtain ⟨d', hd', q', hq', hqn', _⟩ := hil j hj
        rw [hqn, hqn'] at huv
        have := (render_inj (hd d (by simp)).1 (hd d' (by simp [hd'])).1 hq hq' huv).1
        exact hnd.1 (this ▸ List.mem_map_of_mem hd')
    · intro i hi
      rw [List.mem_append] at hi
      rcases hi with hi | hi
      · obtain ⟨q, hq⟩ := hidx i hi
        exact ⟨d, by simp, q, hq⟩
      · obtain ⟨d', hd', hq⟩ := hil i hi
        exact ⟨d', by simp [hd'], hq⟩
    · intro d' hd' hb
      rw [List.mem_cons] at hd'
      rw [List.mem_append]
      rcases hd' with rfl | hd'
      · left
        rw [hnone hb]
        simp [toInfo, render]
      · exact .inr (hbl d' hd' hb)

theorem render_nil (s : String) : render s [] = s := rfl

theorem addWhole_spec {l : List Info} : ∀ (ds : List Decl),
    (∀ d ∈ ds, d.bus = none → ∃ i, lastNamed l d.name = some i ∧ i.start = d.start ∧ i.size = d.size) →
    (∀ d ∈ ds, d.bus ≠ none → lastNamed l d.name = none) →
    addWhole l ds = .ok ((ds.filter fun d => d.bus.isSome).map fun d => ⟨d.name, d.start, d.size⟩)
  | [], _, _ => rfl
  | d :: ds, h1, h2 => by
    have ih := addWhole_spec ds (fun d' h => h1 d' (by simp [h])) (fun d' h => h2 d' (by simp [h]))
    cases hb : d.bus with
    | none =>
      obtain ⟨i, hi, hs⟩ := h1 d (by simp) hb
      simp [addWhole, hi, hs, ih, hb]
    | some b =>
      have := h2 d (by simp) (by simp [hb])
      simp [addWhole, this, ih, hb]

theorem lastNamed_some {l : List Info} (hn : (l.map Info.name).Nodup) {i : Info} (hi : i ∈ l) :
    lastNamed l i.name = some i := by
  unfold lastNamed
  cases h : l.reverse.find? (fun j => j.name == i.name) with
  | none =>
    rw [List.find?_eq_none] at h
    exact absurd (h i (by simpa using hi)) (by simp)
  | some j =>
    have hj := List.mem_of_find?_eq_some h
    have hjn := List.find?_some h
    simp only [beq_iff_eq] at hjn
    have := List.inj_on_of_nodup_map hn (by simpa using hj) hi hjn
    rw [this]

/-- Loading the values of one name. -/
theorem setValues_spec {V : Type} {t : List Slot} {base total h pos : Nat} {e : Slot}
    (hf : findC t h = .ok pos) (hp : t[pos]? = some e) (hb : base ≤ e.start)
    (ht : e.start + e.size ≤ base + total) : ∀ (vs : List V) (i : Nat) (st : Calc V),
    i + vs.length ≤ e.size → vs.length ≤ st.left →
    (∀ k, e.start + i ≤ k → k < e.start + i + vs.length → st.isSet k = false) →
    ∃ st', setValues t base total h vs i st = .ok st' ∧ st'.left = st.left - vs.length ∧
      (∀ k, st'.isSet k = true ↔ (e.start + i ≤ k ∧ k < e.start + i + vs.length) ∨ st.isSet k = true) ∧
      (∀ k v, vs[k]? = some v → st'.mem (e.start + i + k) = v) ∧
      (∀ k, ¬ (e.start + i ≤ k ∧ k < e.start + i + vs.length) → st'.mem k = st.mem k) ∧
      st'.runs = if 0 < vs.length ∧ st'.left = 0 then st'.mem :: st.runs else st.runs
  | [], i, st, _, _, _ => ⟨st, rfl, by simp, by intro k; simp, by simp, by simp, by simp⟩
  | v :: vs, i, st, hi, hl, hs => by
    simp only [List.length_cons] at hi hl hs
    set st1 : Calc V := tryRun
          { st with
            left := st.left - 1
            isSet := fun s => if s = e.start + i then true else st.isSet s
            mem := fun s => if s = e.start + i then v else st.mem s } with hst1
    have hstep : setInput t base total st h i v = .ok st1 := by
      have h0 : ¬ st.left = 0 := by omega
      have h1 : ¬ i ≥ e.size := by omega
      have h2 : ¬ (e.start + i < base ∨ base + total ≤ e.start + i) := by omega
      have h3 := hs (e.start + i) le_rfl (by omega)
      simp only [setInput, h0, if_false, hf, hp, h1, h2, h3, Bool.false_eq_true]
      rfl
    have hleft : st1.left = st.left - 1 := by rw [hst1, tryRun]; split <;> rfl
    have hset : st1.isSet = fun s => if s = e.start + i then true else st.isSet s := by
      rw [hst1, tryRun]; split <;> rfl
    have hmem : st1.mem = fun s => if s = e.start + i then v else st.mem s := by
      rw [hst1, tryRun]; split <;> rfl
    have hruns : st1.runs = if st1.left = 0 then st1.mem :: st.runs else st.runs := by
      rw [hleft, hmem, hst1, tryRun]
      simp only
      split <;> rfl
    obtain ⟨st', hst', h1, h2, h3, h4, h5⟩ := setValues_spec hf hp hb ht vs (i + 1) st1 (by omega)
      (by omega) (by
        intro k hk1 hk2
        rw [hset]
        have : k ≠ e.start + i := by omega
        simp only [this, if_false]
        exact hs k (by omega) (by omega))
    refine ⟨st', by simp only [setValues, hstep, hst'], ?_, ?_, ?_, ?_, ?_⟩
    · rw [h1, hleft, List.length_cons]; omega
    · intro k
      rw [h2 k, hset, List.length_cons]
      by_cases hk : k = e.start + i
      · subst hk
        simp only [if_true, or_true, true_iff]
        left; omega
      · simp only [hk, if_false]
        constructor
        · rintro (h | h)
          · left; omega
          · right; exact h
        · rintro (h | h)
          · left; omega
          · right; exact h
    · intro k w hw
      cases k with
      | zero =>
        simp only [List.getElem?_cons_zero, Option.some.injEq] at hw
        rw [h4 _ (by omega), hmem]
        simpa using hw
      | succ k =>
        simp only [List.getElem?_cons_succ] at hw
        have := h3 k w hw
        rw [← this]
        congr 1; omega
    · intro k hk
      rw [List.length_cons] at hk
      rw [h4 k (by omega), hmem]
      have : k ≠ e.start + i := by omega
      simp only [this, if_false]
    · rw [h5, hruns]
      cases vs with
      | nil =>
        simp only [List.length_nil, Nat.lt_irrefl, false_and, if_false, List.length_cons, Nat.zero_add,
          Nat.zero_lt_one, true_and]
        simp only [setValues, Except.ok.injEq] at hst'
        rw [hst']
      | cons w ws =>
        have : st1.left ≠ 0 := by rw [hleft]; simp at hl; omega
        simp only [this, if_false, List.length_cons]
        simp

theorem card_set {base total k : Nat} {f : Nat → Bool} (hk : base ≤ k ∧ k < base + total)
    (hf : f k = false) :
    ((Finset.Ico base (base + total)).filter fun s => (if s = k then true else f s) = true).card =
      ((Finset.Ico base (base + total)).filter fun s => f s = true).card + 1 := by
  have : (Finset.Ico base (base + total)).filter (fun s => (if s = k then true else f s) = true) =
      insert k ((Finset.Ico base (base + total)).filter fun s => f s = true) := by
    ext s
    simp only [Finset.mem_filter, Finset.mem_Ico, Finset.mem_insert]
    by_cases hs : s = k
    · subst hs; simp [hk]
    · simp [hs]
  rw [this, Finset.card_insert_of_notMem]
  simp [hf]

/-- The entry found for a name. -/
def EntryOf (H : String → Nat) (t : List Slot) (name : String) (e : Slot) : Prop :=
  ∃ pos, findC t (H name) = .ok pos ∧ t[pos]? = some e

/-- Items with the entries of their names: values of the right number, inside the inputs, and no place
set twice. -/
def Fits {V : Type} (H : String → Nat) (t : List Slot) (base total : Nat) :
    List ((String × List V) × Slot) → Prop
  | [] => True
  | (it, e) :: rest =>
    EntryOf H t it.1 e ∧ it.2.length = e.size ∧ base ≤ e.start ∧ e.start + e.size ≤ base + total ∧
      (∀ r ∈ rest, ∀ k, e.start ≤ k → k < e.start + e.size →
        ¬ (r.2.start ≤ k ∧ k < r.2.start + r.2.size)) ∧
      Fits H t base total rest

theorem loadItems_spec {V : Type} {H : String → Nat} {t : List Slot} {base total : Nat} :
    ∀ (sel : List ((String × List V) × Slot)) (st : Calc V), Fits H t base total sel →
    (sel.map fun r => r.2.size).sum ≤ st.left →
    (∀ r ∈ sel, ∀ k, r.2.start ≤ k → k < r.2.start + r.2.size → st.isSet k = false) →
    ∃ st', loadItems H t base total (sel.map Prod.fst) st = .ok st' ∧
      st'.left = st.left - (sel.map fun r => r.2.size).sum ∧
      (∀ r ∈ sel, ∀ (k : Nat) v, r.1.2[k]? = some v → st'.mem (r.2.start + k) = v) ∧
      (∀ k, (∀ r ∈ sel, ¬ (r.2.start ≤ k ∧ k < r.2.start + r.2.size)) → st'.mem k = st.mem k) ∧
      st'.runs = if 0 < (sel.map fun r => r.2.size).sum ∧ st'.left = 0 then st'.mem :: st.runs
        else st.runs
  | [], st, _, _, _ => ⟨st, rfl, by simp, by simp, by simp, by simp⟩
  | ((name, vs), e) :: rest, st, hfit, hsum, hset => by
    obtain ⟨⟨pos, hf, hp⟩, hlen, hb, ht, hdis, hrest⟩ := hfit
    simp only at hf hlen
    simp only [List.map_cons, List.sum_cons] at hsum
    obtain ⟨st1, h1, hl1, hs1, hv1, hm1, hr1⟩ := setValues_spec hf hp hb ht vs 0 st (by omega)
      (by omega) (by
        intro k hk1 hk2
        exact hset ((name, vs), e) (by simp) k (by simpa using hk1) (by rw [hlen] at hk2; simpa using hk2))
    rw [hlen] at hl1 hs1 hm1 hr1
    simp only [Nat.add_zero] at hs1 hv1 hm1
    obtain ⟨st', h2, hl2, hv2, hm2, hr2⟩ := loadItems_spec rest st1 hrest (by omega) (by
      intro r hr k hk1 hk2
      by_contra hne
      have hne : st1.isSet k = true := by simpa using hne
      rw [hs1 k] at hne
      rcases hne with hne | hne
      · exact hdis r hr k hne.1 hne.2 ⟨hk1, hk2⟩
      · rw [hset r (by simp [hr]) k hk1 hk2] at hne
        cases hne)
    refine ⟨st', ?_, ?_, ?_, ?_, ?_⟩
    · have hlt : ¬ vs.length < e.size := by omega
      have hgt : ¬ vs.length > e.size := by omega
      simp only [List.map_cons, loadItems, hf, hp, hlt, hgt, if_false, h1]
      exact h2
    · rw [hl2, hl1]; simp only [List.map_cons, List.sum_cons]; omega
    · intro r hr k v hk
      rw [List.mem_cons] at hr
      rcases hr with rfl | hr
      · have hk' : k < e.size := by rw [← hlen]; exact (List.getElem?_eq_some_iff.mp hk).1
        rw [← hv1 k v hk]
        apply hm2
        intro r' hr' hin
        exact hdis r' hr' (e.start + k) (by omega) (by omega) hin
      · exact hv2 r hr k v hk
    · intro k hk
      rw [hm2 k (fun r hr => hk r (by simp [hr])), hm1 k (hk ((name, vs), e) (by simp))]
    · rw [List.map_cons, List.sum_cons, hr2, hr1]
      by_cases hz : (rest.map fun r => r.2.size).sum = 0
      · have hmm : st'.mem = st1.mem := by
          funext k
          apply hm2
          intro r hr hin
          have h0 : r.2.size = 0 := by
            have hz' := List.sum_eq_zero_iff_forall_eq_nat.mp hz
            exact hz' _ (List.mem_map_of_mem (f := fun r : (String × List V) × Slot => r.2.size) hr)
          omega
        have hll : st'.left = st1.left := by rw [hl2, hz]; rfl
        rw [hz, hmm, hll]
        simp
      · have hne : st1.left ≠ 0 := by omega
        have h0 : 0 < (rest.map fun r => r.2.size).sum := by omega
        have h0' : 0 < e.size + (rest.map fun r => r.2.size).sum := by omega
        simp only [hne, and_false, if_false, h0, h0', true_and]

/-- What holds while values are loaded. `given` are the items treated so far. -/
structure Inv {V : Type} (H : String → Nat) (t : List Slot) (base total : Nat)
    (given : List (String × List V)) (st : Calc V) : Prop where
  count : st.left + ((Finset.Ico base (base + total)).filter fun s => st.isSet s = true).card = total
  inside : ∀ k, st.isSet k = true → base ≤ k ∧ k < base + total
  runs : st.runs = if st.left = 0 then [st.mem] else []
  vals : ∀ k, st.isSet k = true → ∃ it ∈ given, ∃ e, EntryOf H t it.1 e ∧ ∃ (j : Nat) (v : V), j < e.size ∧
    it.2[j]? = some v ∧ k = e.start + j ∧ st.mem k = v

theorem setInput_inv {V : Type} {H : String → Nat} {t : List Slot} {base total : Nat}
    {given : List (String × List V)} {st st' : Calc V} (inv : Inv H t base total given st)
    {it : String × List V} (hit : it ∈ given) {i : Nat} {v : V} (hv : it.2[i]? = some v)
    (h : setInput t base total st (H it.1) i v = .ok st') : Inv H t base total given st' := by
  unfold setInput at h
  split at h
  · cases h
  · rename_i hl0
    split at h
    · cases h
    · rename_i pos hf
      split at h
      · cases h
      · rename_i e hp
        split at h
        · cases h
        · rename_i hi
          split at h
          · cases h
          · rename_i hin
            split at h
            · cases h
            · rename_i hset
              have hset : st.isSet (e.start + i) = false := by simpa using hset
              simp only [Except.ok.injEq] at h
              set st1 : Calc V :=
                { st with
                  left := st.left - 1
                  isSet := fun s => if s = e.start + i then true else st.isSet s
                  mem := fun s => if s = e.start + i then v else st.mem s } with hst1
              have hl : st'.left = st.left - 1 := by rw [← h, tryRun]; split <;> rfl
              have hs : st'.isSet = fun s => if s = e.start + i then true else st.isSet s := by
                rw [← h, tryRun]; split <;> rfl
              have hm : st'.mem = fun s => if s = e.start + i then v else st.mem s := by
                rw [← h, tryRun]; split <;> rfl
              have hr0 : st.runs = [] := by rw [inv.runs]; simp [hl0]
              refine ⟨?_, ?_, ?_, ?_⟩
              · rw [hl, hs]
                have := card_set (base := base) (total := total) (k := e.start + i) (f := st.isSet)
                  (by omega) hset
                have hc := inv.count
                simp only at this ⊢
                omega
              · intro k hk
                rw [hs] at hk
                by_cases hke : k = e.start + i
                · omega
                · simp only [hke, if_false] at hk
                  exact inv.inside k hk
              · rw [← h, tryRun]
                split
                · rename_i h0
                  simp [h0, hst1, hr0]
                · rename_i h0
                  simp [h0, hst1, hr0]
              · intro k hk
                rw [hs] at hk
                by_cases hke : k = e.start + i
                · exact ⟨it, hit, e, ⟨pos, hf, hp⟩, i, v, by omega, hv, hke, by rw [hm]; simp [hke]⟩
                · simp only [hke, if_false] at hk
                  obtain ⟨it', hit', e', he', j, w, h1, h2, h3, h4⟩ := inv.vals k hk
                  exact ⟨it', hit', e', he', j, w, h1, h2, h3, by rw [hm]; simp only [hke, if_false]; exact h4⟩

theorem setValues_inv {V : Type} {H : String → Nat} {t : List Slot} {base total : Nat}
    {given : List (String × List V)} {it : String × List V} (hit : it ∈ given) :
    ∀ (vs : List V) (i : Nat) (st st' : Calc V), Inv H t base total given st →
    (∀ (k : Nat) v, vs[k]? = some v → it.2[i + k]? = some v) →
    setValues t base total (H it.1) vs i st = .ok st' → Inv H t base total given st'
  | [], _, _, _, inv, _, h => by cases h; exact inv
  | v :: vs, i, st, st', inv, hv, h => by
    simp only [setValues] at h
    split at h
    · cases h
    · rename_i st1 h1
      refine setValues_inv hit vs (i + 1) st1 st'
        (setInput_inv inv hit (by simpa using hv 0 v rfl) h1) ?_ h
      intro k w hk
      have := hv (k + 1) w (by simpa using hk)
      rw [← this]; congr 1; omega

theorem Inv.more {V : Type} {H : String → Nat} {t : List Slot} {base total : Nat}
    {given more : List (String × List V)} {st : Calc V} (inv : Inv H t base total given st)
    (h : ∀ x ∈ given, x ∈ more) : Inv H t base total more st :=
  ⟨inv.count, inv.inside, inv.runs, fun k hk => by
    obtain ⟨it, hit, r⟩ := inv.vals k hk
    exact ⟨it, h it hit, r⟩⟩

theorem loadItems_inv {V : Type} {H : String → Nat} {t : List Slot} {base total : Nat}
    {given : List (String × List V)} : ∀ (items : List (String × List V)) (st st' : Calc V),
    (∀ x ∈ items, x ∈ given) → Inv H t base total given st →
    loadItems H t base total items st = .ok st' → Inv H t base total given st'
  | [], _, _, _, inv, h => by cases h; exact inv
  | (name, vs) :: items, st, st', hg, inv, h => by
    simp only [loadItems] at h
    split at h
    · cases h
    · split at h
      · cases h
      · split at h
        · cases h
        · split at h
          · cases h
          · split at h
            · cases h
            · rename_i st1 h1
              exact loadItems_inv items st1 st' (fun x hx => hg x (by simp [hx]))
                (setValues_inv (it := (name, vs)) (hg _ (by simp)) vs 0 st st1 inv
                  (fun k v hk => by simpa using hk) h1) h

end Verif.Inputs
