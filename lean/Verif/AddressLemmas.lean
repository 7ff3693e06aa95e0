import Verif.MapLemmas

/-! # Lemmas about addresses computed from declarations, totals over instances and statistics -/

set_option linter.unusedSectionVars false
set_option linter.unusedSimpArgs false

namespace Verif.Dag
open Verif.ModArith (Res Fail)
open Verif.Algebra
open Verif.Props.Algebra (ok_bind)

/-! ## Row-major positions -/

/-- Row-major position of an index tuple in an array. -/
def flat : List Nat → List Nat → Option Nat
  | [], [] => some 0
  | d :: ds, i :: idx => if i < d then (flat ds idx).map fun k => i * ds.foldl (· * ·) 1 + k else none
  | _, _ => none

/-- The index suffix of a name. -/
def brackets (idx : List Nat) : Name := idx.flatMap fun i => '[' :: digits i ++ [']']

/-- The position of an access such as `b[1].f[0]` among the scalars of the wires, computed from the declared dimensions and the sizes of
the preceding wires and fields, as the generated code does. -/
def Wires.address : Wires → List (Name × List Nat) → Option Nat
  | _, [] => none
  | .nil, _ => none
  | .signal n ds rest, (m, idx) :: acc =>
    if m = n then (if acc = [] then flat ds idx else none)
    else (rest.address ((m, idx) :: acc)).map fun k => ds.foldl (· * ·) 1 + k
  | .bus n ds f rest, (m, idx) :: acc =>
    if m = n then (flat ds idx).bind fun k => (f.address acc).map fun j => k * f.size + j
    else (rest.address ((m, idx) :: acc)).map fun k => ds.foldl (· * ·) f.size + k

/-- The text of an access. -/
def accessName : List (Name × List Nat) → Name
  | [] => []
  | [(m, idx)] => m ++ brackets idx
  | (m, idx) :: acc => m ++ brackets idx ++ '.' :: accessName acc

theorem getElem?_flatMap_block {α β : Type} (f : α → List β) (L : Nat) (l : List α) (hL : ∀ a ∈ l, (f a).length = L) (i j : Nat) (hj : j < L)
    {a : α} (ha : l[i]? = some a) : (l.flatMap f)[i * L + j]? = (f a)[j]? := by
  induction l generalizing i with
  | nil => simp at ha
  | cons x l ih =>
    rw [List.flatMap_cons]
    have hx := hL x (by simp)
    cases i with
    | zero =>
      simp only [List.getElem?_cons_zero, Option.some.injEq] at ha
      subst ha
      rw [List.getElem?_append_left (by rw [hx]; omega)]
      simp
    | succ i =>
      rw [List.getElem?_cons_succ] at ha
      rw [List.getElem?_append_right (by rw [hx, Nat.succ_mul]; omega), hx]
      have : (i + 1) * L + j - L = i * L + j := by rw [Nat.succ_mul]; omega
      rw [this]
      exact ih (fun a ha => hL a (by simp [ha])) i ha

theorem suffixes_len (ds : List Nat) : (suffixes ds).length = ds.foldl (· * ·) 1 := by
  have := suffixes_length ds 1
  omega

theorem flat_spec (ds idx : List Nat) (k : Nat) (h : flat ds idx = some k) :
    (suffixes ds)[k]? = some (brackets idx) ∧ k < ds.foldl (· * ·) 1 := by
  induction ds generalizing idx k with
  | nil =>
    cases idx with
    | nil => simp only [flat, Option.some.injEq] at h; subst h; simp [suffixes, brackets]
    | cons i idx => simp [flat] at h
  | cons d ds ih =>
    cases idx with
    | nil => simp [flat] at h
    | cons i idx =>
      unfold flat at h
      split at h
      · rename_i hi
        cases hf : flat ds idx with
        | none => rw [hf] at h; simp at h
        | some k' =>
          rw [hf] at h
          simp only [Option.map_some, Option.some.injEq] at h
          obtain ⟨h1, h2⟩ := ih idx k' hf
          have hs : (suffixes (d :: ds))[k]? = some (brackets (i :: idx)) := by
            rw [← h, suffixes, getElem?_flatMap_block _ (ds.foldl (· * ·) 1) _ (by intro a _; simp [suffixes_len]) i k' h2
              (a := i) (by rw [List.getElem?_range hi])]
            rw [List.getElem?_map, h1]
            simp [brackets]
          refine ⟨hs, ?_⟩
          rw [← suffixes_len]
          exact (List.getElem?_eq_some_iff.1 hs).1
      · simp at h

/-- The address computed from the declarations is the position of the name. -/
theorem address_spec (w : Wires) (hw : w.Proper) (pre : Name) : ∀ (acc : List (Name × List Nat)) (k : Nat), w.address acc = some k →
    (w.names pre)[k]? = some (pre ++ accessName acc) := by
  induction w generalizing pre with
  | nil => intro acc k h; cases acc <;> simp [Wires.address] at h
  | signal n ds rest ih =>
    intro acc k h
    cases acc with
    | nil => simp [Wires.address] at h
    | cons e acc =>
      obtain ⟨m, idx⟩ := e
      unfold Wires.address at h
      rw [Wires.names, arrayNames_eq]
      split at h
      · rename_i hm
        split at h
        · rename_i ha
          subst hm ha
          obtain ⟨h1, h2⟩ := flat_spec ds idx k h
          rw [List.getElem?_append_left (by simp [suffixes_len, h2]), List.getElem?_map, h1]
          simp [accessName]
        · cases h
      · cases hr : rest.address ((m, idx) :: acc) with
        | none => rw [hr] at h; simp at h
        | some k' =>
          rw [hr] at h
          simp only [Option.map_some, Option.some.injEq] at h
          subst h
          rw [List.getElem?_append_right (by simp [suffixes_len])]
          simp only [List.length_map, suffixes_len, Nat.add_sub_cancel_left]
          exact ih hw.2 pre _ k' hr
  | bus n ds f rest ihf ih =>
    intro acc k h
    cases acc with
    | nil => simp [Wires.address] at h
    | cons e acc =>
      obtain ⟨m, idx⟩ := e
      unfold Wires.address at h
      rw [Wires.names]
      have hlen : ∀ b ∈ arrayNames (pre ++ n) ds, (f.names (b ++ ['.'])).length = f.size := fun b _ => names_length f _
      split at h
      · rename_i hm
        subst hm
        cases hf : flat ds idx with
        | none => rw [hf] at h; simp at h
        | some k1 =>
          cases hj : f.address acc with
          | none => rw [hf, hj] at h; simp at h
          | some j =>
            rw [hf, hj] at h
            simp only [Option.bind_some, Option.map_some, Option.some.injEq] at h
            subst h
            obtain ⟨h1, h2⟩ := flat_spec ds idx k1 hf
            have hn := ihf hw.2.1 (pre ++ m ++ brackets idx ++ ['.']) acc j hj
            have hjlt : j < f.size := by
              have := (List.getElem?_eq_some_iff.1 hn).1
              rwa [names_length] at this
            have hblock := getElem?_flatMap_block (fun b => f.names (b ++ ['.'])) f.size (arrayNames (pre ++ m) ds) hlen k1 j hjlt
              (a := pre ++ m ++ brackets idx) (by rw [arrayNames_eq, List.getElem?_map, h1]; rfl)
            rw [hn] at hblock
            rw [List.getElem?_append_left (List.getElem?_eq_some_iff.1 hblock).1, hblock]
            cases acc with
            | nil => simp [Wires.address] at hj
            | cons e acc => simp [accessName]
      · cases hr : rest.address ((m, idx) :: acc) with
        | none => rw [hr] at h; simp at h
        | some k' =>
          rw [hr] at h
          simp only [Option.map_some, Option.some.injEq] at h
          subst h
          have hl : ((arrayNames (pre ++ n) ds).flatMap fun b => f.names (b ++ ['.'])).length = ds.foldl (· * ·) f.size := by
            have := names_length (.bus n ds f .nil) pre
            simpa [Wires.names, Wires.size] using this
          rw [List.getElem?_append_right (by omega), hl, Nat.add_sub_cancel_left]
          exact ih hw.2.2.2 pre _ k' hr

/-- The offset inside one wire. -/
theorem address_localIds (w : Wires) (start : Nat) : ∀ (m : Name) (idx : List Nat) (acc : List (Name × List Nat)) (k : Nat),
    w.address ((m, idx) :: acc) = some k → w.Proper →
    ∃ s sz inner, (m, s, sz) ∈ w.localIds start ∧ start + k = s + inner ∧ inner < sz := by
  induction w generalizing start with
  | nil => intro m idx acc k h; simp [Wires.address] at h
  | signal n ds rest ih =>
    intro m idx acc k h hw
    unfold Wires.address at h
    rw [Wires.localIds]
    split at h
    · rename_i hm
      split at h
      · subst hm
        exact ⟨start, _, k, by simp, rfl, (flat_spec ds idx k h).2⟩
      · cases h
    · cases hr : rest.address ((m, idx) :: acc) with
      | none => rw [hr] at h; simp at h
      | some k' =>
        rw [hr] at h
        simp only [Option.map_some, Option.some.injEq] at h
        obtain ⟨s, sz, inner, h1, h2, h3⟩ := ih (start + ds.foldl (· * ·) 1) m idx acc k' hr hw.2
        exact ⟨s, sz, inner, by simp [h1], by omega, h3⟩
  | bus n ds f rest ihf ih =>
    intro m idx acc k h hw
    have hadd := h
    unfold Wires.address at h
    rw [Wires.localIds]
    split at h
    · rename_i hm
      subst hm
      refine ⟨start, ds.foldl (· * ·) f.size, k, by simp, rfl, ?_⟩
      have hfull : (Wires.bus m ds f .nil).address ((m, idx) :: acc) = some k := by
        unfold Wires.address
        rw [if_pos rfl]
        exact h
      have := address_spec (.bus m ds f .nil) ⟨hw.1, hw.2.1, hw.2.2.1, trivial⟩ [] _ k hfull
      have := (List.getElem?_eq_some_iff.1 this).1
      rw [names_length] at this
      simpa [Wires.size] using this
    · cases hr : rest.address ((m, idx) :: acc) with
      | none => rw [hr] at h; simp at h
      | some k' =>
        rw [hr] at h
        simp only [Option.map_some, Option.some.injEq] at h
        obtain ⟨s, sz, inner, h1, h2, h3⟩ := ih (start + ds.foldl (· * ·) f.size) m idx acc k' hr hw.2.2.2
        exact ⟨s, sz, inner, by simp [h1], by omega, h3⟩

theorem get_local {ts : List Template} (h : WellNamed ts) {t : Template} (ht : t ∈ ts) {k : Nat} {s : Name} (hs : (locNames t)[k]? = some s) :
    NMap.get (table ts t) s = some (k + 1) := by
  rw [NMap.get_eq_some (table_fresh h t ht)]
  unfold table
  refine List.mem_append_left _ ?_
  rw [List.mem_zipIdx_iff_le_and_getElem?_sub]
  exact ⟨by omega, by simpa using hs⟩

theorem get_child {ts : List Template} (h : WellNamed ts) {t : Template} (ht : t ∈ ts) {l : Name} {j start : Nat} (hc : (l, j, start) ∈ kids ts t)
    {k : Nat} {s : Name} (hs : (namesAt ts j)[k]? = some s) : NMap.get (table ts t) (l ++ '.' :: s) = some (start + k + 1) := by
  rw [NMap.get_eq_some (table_fresh h t ht)]
  unfold table
  refine List.mem_append_right _ (List.mem_flatMap.2 ⟨_, hc, ?_⟩)
  unfold childNames
  refine List.mem_map.2 ⟨(s, start + k + 1), ?_, rfl⟩
  rw [List.mem_zipIdx_iff_le_and_getElem?_sub]
  refine ⟨by simp only; omega, ?_⟩
  simp only
  rw [show start + k + 1 - (start + 1) = k by omega]
  exact hs

/-! ## Totals -/

theorem sum_flatMap' {α : Type} (l : List α) (f : α → List Nat) : (l.flatMap f).sum = (l.map fun a => (f a).sum).sum := by
  induction l with
  | nil => rfl
  | cons a l ih => simp [ih]

/-- Summing a weight over all instances gives the accumulated total. -/
theorem instances_sum {ts : List Template} (ho : Ordered ts) (w : Template → Nat) (fuel : Nat) : ∀ (i o : Nat) (path : Name),
    i < ts.length → i < fuel →
    ((instances ts fuel i o path).map fun y => (ts[y.1]?.map w).getD 0).sum = (totals w ts).getD i 0 := by
  induction fuel with
  | zero => intro i o path _ h; omega
  | succ fuel ih =>
    intro i o path hi hlt
    have ht : ts[i]? = some ts[i] := List.getElem?_eq_getElem hi
    unfold instances
    rw [List.map_cons, List.sum_cons, totals_eq w ts ho i _ ht, kidsAt_eq ht, ht]
    simp only [Option.map_some, Option.getD_some, Nat.add_left_cancel_iff]
    rw [List.map_flatMap, sum_flatMap']
    have : (kids ts ts[i]).map (fun k => ((instances ts fuel k.2.1 (o + k.2.2) (path ++ '.' :: k.1)).map
        fun y => (ts[y.1]?.map w).getD 0).sum) = (kids ts ts[i]).map fun k => (totals w ts).getD k.2.1 0 := by
      apply List.map_congr_left
      intro k hk
      have := ho i _ ht _ (layout_target hk)
      simp only at this
      exact ih _ _ _ (by omega) (by omega)
    rw [this]
    congr 1
    unfold kids
    generalize noLoc ts[i] = o'
    generalize ts[i].connexions = cs
    induction cs generalizing o' with
    | nil => rfl
    | cons c cs ih' => rw [layout, List.map_cons, List.map_cons, ih']

theorem statsStep_eq {ts : List Template} (k : Nat) {t : Template} (ht : ts[k]? = some t) {n : Node} {es : List Edge} {cs : List C}
    (hn : NodeOK ts k t n es cs) : statsStep ⟨totals noLoc (ts.take k), totals (fun t => noOut t + noPub t + noPriv t) (ts.take k),
      totals (fun _ => 1) (ts.take k)⟩ (n, es) = ⟨totals noLoc (ts.take (k + 1)), totals (fun t => noOut t + noPub t + noPriv t) (ts.take (k + 1)),
      totals (fun _ => 1) (ts.take (k + 1))⟩ := by
  have htk : ts.take (k + 1) = ts.take k ++ [t] := by rw [List.take_add_one, ht]; rfl
  rw [htk, totals_concat, totals_concat, totals_concat]
  have hsum : ∀ l : List Nat, (es.map fun ed => l.getD ed.goesTo 0).sum = (t.connexions.map fun c => l.getD c.2 0).sum := by
    intro l
    rw [hn.edges]
    congr 1
    generalize noLoc t = a
    generalize 1 = b
    generalize t.connexions = cs
    induction cs generalizing a b with
    | nil => rfl
    | cons c cs ih => rw [edgesOf, List.map_cons, List.map_cons, ih]
  unfold statsStep
  simp only [hsum, hn.ins, hn.outs, hn.ints]
  have := noLoc_eq t
  have h1 : noPub t + noPriv t + noOut t + noInt t = noLoc t := by omega
  have h2 : noPub t + noPriv t + noOut t = noOut t + noPub t + noPriv t := by omega
  simp only [Stats.mk.injEq]
  refine ⟨?_, ?_, trivial⟩
  · rw [h1]
  · rw [h2]

theorem dagStats_eq {ts : List Template} {d : Graph} (hb : Built ts d) : dagStats d =
    ⟨totals noLoc ts, totals (fun t => noOut t + noPub t + noPriv t) ts, totals (fun _ => 1) ts⟩ := by
  have hlen : (d.nodes.zip d.adjacency).length = ts.length := by simp [hb.nodes, hb.adj]
  have : ∀ k ≤ ts.length, ((d.nodes.zip d.adjacency).take k).foldl statsStep ⟨[], [], []⟩ =
      ⟨totals noLoc (ts.take k), totals (fun t => noOut t + noPub t + noPriv t) (ts.take k), totals (fun _ => 1) (ts.take k)⟩ := by
    intro k
    induction k with
    | zero => intro _; simp [totals]
    | succ k ih =>
      intro hk
      have ht : ts[k]? = some (ts[k]'(by omega)) := List.getElem?_eq_getElem _
      obtain ⟨n, es, cs, g1, g2, g3, g4⟩ := hb.ok k _ ht
      have hz : (d.nodes.zip d.adjacency)[k]? = some (n, es) := by
        rw [List.getElem?_zip_eq_some]; exact ⟨g1, g2⟩
      rw [List.take_add_one, hz, List.foldl_append, ih (by omega)]
      simp only [Option.toList_some, List.foldl_cons, List.foldl_nil]
      exact statsStep_eq k ht g4
  have h := this ts.length le_rfl
  rw [← hlen, List.take_length, hlen, List.take_length] at h
  exact h

/-! ## Position of a component -/

theorem instances_fuel {ts : List Template} (ho : Ordered ts) : ∀ (f f' i o : Nat) (path : Name), i < ts.length → i < f → i < f' →
    instances ts f i o path = instances ts f' i o path := by
  intro f
  induction f with
  | zero => intro f' i o path _ h; omega
  | succ f ih =>
    intro f' i o path hi h h'
    cases f' with
    | zero => omega
    | succ f' =>
      unfold instances
      congr 1
      rw [List.flatMap_congr]
      intro k hk
      have ht : ts[i]? = some ts[i] := List.getElem?_eq_getElem hi
      rw [kidsAt_eq ht] at hk
      have := ho i _ ht _ (layout_target hk)
      simp only at this
      exact ih f' _ _ _ (by omega) (by omega) (by omega)

theorem symLines_original (ts : List Template) (l : List (Nat × Nat × Name)) : (l.flatMap (symLines ts)).map SymElem.original =
    (l.flatMap fun y => List.range' (y.2.1 + 1) (namesAt ts y.1).length).map (fun n : Nat => (n : Int)) := by
  induction l with
  | nil => rfl
  | cons y l ih =>
    rw [List.flatMap_cons, List.flatMap_cons, List.map_append, List.map_append, ih]
    congr 1
    unfold symLines
    rw [← map_snd_zipIdx, List.map_map, List.map_map]
    rfl

theorem symLines_symbol (ts : List Template) (l : List (Nat × Nat × Name)) : (l.flatMap (symLines ts)).map SymElem.symbol =
    l.flatMap fun y => (namesAt ts y.1).map fun x => y.2.2 ++ '.' :: x := by
  induction l with
  | nil => rfl
  | cons y l ih =>
    rw [List.flatMap_cons, List.flatMap_cons, List.map_append, ih]
    congr 1
    unfold symLines
    conv_rhs => rw [← map_fst_zipIdx (namesAt ts y.1) (y.2.1 + 1), List.map_map]
    rw [List.map_map]
    rfl

/-- The lines of a component's subtree are a contiguous part of the file. -/
theorem block {ts : List Template} (ho : Ordered ts) (fuel : Nat) : ∀ (i o : Nat) (path : Name), i < ts.length → i < fuel →
    ∀ y ∈ instances ts fuel i o path,
      ((((instances ts fuel i o path).flatMap (symLines ts)).drop (y.2.1 - o)).take (size ts y.1) =
        (instances ts fuel y.1 y.2.1 y.2.2).flatMap (symLines ts)) := by
  have hlen : ∀ (fuel i o : Nat) (path : Name), i < ts.length → i < fuel →
      ((instances ts fuel i o path).flatMap (symLines ts)).length = size ts i := by
    intro fuel i o path hi hlt
    have h1 := symLines_original ts (instances ts fuel i o path)
    rw [instances_signals ho fuel i o path _ (List.getElem?_eq_getElem hi) hlt] at h1
    have := congrArg List.length h1
    simpa using this
  induction fuel with
  | zero => intro i o path _ h; omega
  | succ fuel ih =>
    intro i o path hi hlt y hy
    have hl := hlen (fuel + 1) i o path hi hlt
    have ht : ts[i]? = some ts[i] := List.getElem?_eq_getElem hi
    unfold instances at hy
    rcases List.mem_cons.1 hy with rfl | hy
    · simp only [Nat.sub_self, List.drop_zero]
      rw [← hl, List.take_length]
    · rw [List.mem_flatMap] at hy
      obtain ⟨k, hk, hy⟩ := hy
      rw [kidsAt_eq ht] at hk
      have hj := ho i _ ht _ (layout_target hk)
      simp only at hj
      have hjf : k.2.1 < fuel := by omega
      have hsub := ih k.2.1 (o + k.2.2) (path ++ '.' :: k.1) (by omega) hjf y hy
      have hrange := instances_range ho fuel k.2.1 (o + k.2.2) (path ++ '.' :: k.1) (by omega) y hy
      have hyt := instances_template ho fuel k.2.1 (o + k.2.2) (path ++ '.' :: k.1) (by omega) y hy
      have hyk : y.1 < fuel + 1 ∧ y.1 < fuel := by
        have : ∀ (f i o : Nat) (path : Name), i < ts.length → ∀ y ∈ instances ts f i o path, y.1 ≤ i := by
          intro f
          induction f with
          | zero => intro i o path _ y hy; simp [instances] at hy
          | succ f ih =>
            intro i o path hi y hy
            unfold instances at hy
            rcases List.mem_cons.1 hy with rfl | hy
            · exact le_rfl
            · rw [List.mem_flatMap] at hy
              obtain ⟨k, hk, hy⟩ := hy
              have ht : ts[i]? = some ts[i] := List.getElem?_eq_getElem hi
              rw [kidsAt_eq ht] at hk
              have hj := ho i _ ht _ (layout_target hk)
              simp only at hj
              have := ih k.2.1 _ _ (by omega) y hy
              omega
        have := this fuel k.2.1 _ _ (by omega) y hy
        omega
      -- the part of the file for the subcomponent
      have hkid : ((((instances ts (fuel + 1) i o path).flatMap (symLines ts)).drop k.2.2).take (size ts k.2.1)) =
          (instances ts fuel k.2.1 (o + k.2.2) (path ++ '.' :: k.1)).flatMap (symLines ts) := by
        have hgen : ∀ (cs : List (Name × Nat)) (a : Nat) (pre : List SymElem), pre.length = a →
            (∀ c ∈ cs, c.2 < ts.length ∧ c.2 < fuel) → ∀ k ∈ layout (size ts) a cs,
            ((pre ++ ((layout (size ts) a cs).flatMap fun k =>
              (instances ts fuel k.2.1 (o + k.2.2) (path ++ '.' :: k.1)).flatMap (symLines ts))).drop k.2.2).take (size ts k.2.1) =
              (instances ts fuel k.2.1 (o + k.2.2) (path ++ '.' :: k.1)).flatMap (symLines ts) := by
          intro cs
          induction cs with
          | nil => intro a pre _ _ k hk; simp [layout] at hk
          | cons c cs ihc =>
            intro a pre hpre hcs k hk
            simp only [layout, List.mem_cons] at hk
            simp only [layout, List.flatMap_cons]
            have hc := hcs c (by simp)
            have hcl := hlen fuel c.2 (o + a) (path ++ '.' :: c.1) hc.1 hc.2
            rcases hk with rfl | hk
            · simp only
              rw [List.drop_left' hpre, List.take_left' hcl]
            · rw [← List.append_assoc]
              exact ihc (a + size ts c.2) _ (by rw [List.length_append, hpre, hcl]) (fun c' hc' => hcs c' (by simp [hc'])) k hk
        have := hgen ts[i].connexions (noLoc ts[i]) (symLines ts (i, o, path)) (by
            unfold symLines
            simp [namesAt_eq ht, noLoc]) (by
            intro c hc
            have := ho i _ ht c hc
            omega) k hk
        rw [← this]
        congr 2
        conv_lhs => unfold instances
        rw [List.flatMap_cons, List.flatMap_assoc, kidsAt_eq ht]
        rfl
      have hdrop : y.2.1 - o = k.2.2 + (y.2.1 - (o + k.2.2)) := by omega
      rw [hdrop, ← List.drop_drop]
      rw [← hkid, List.drop_take, List.take_take] at hsub
      rw [Nat.min_eq_left (by omega)] at hsub
      rw [hsub]
      rw [instances_fuel ho fuel (fuel + 1) y.1 y.2.1 y.2.2 hyt hyk.2 hyk.1]

end Verif.Dag
