import Verif.JsonOutLemmas
import Verif.Props.Export

/-!
# C95: the JSON files of constraints and of substitutions

The reader (`parse`, `readConstraints`, `readSubstitutions`) is part of the statements: a fragment of the grammar of RFC 8259, then
decimal numbers.
-/

set_option linter.unusedSectionVars false
set_option linter.unusedSimpArgs false

namespace Verif.Props.JsonOut
open Verif.ModArith (Res Fail)
open Verif.Algebra
open Verif.Dag
open Verif.Linear Verif.Clusters Verif.Simplification
open Verif.JsonOut
open Verif.Props.Algebra (ok_bind)
open Verif.Props.Dag
open Verif.Props.Export
open Verif.Props.R1cs (Fits Same C37_round_trip)
open Verif.R1cs (Triple writeFile readFile)
open Verif.Props.Simplification (Valid EnoughFuel Tidy wires mem_wires plain plain_valid)

/-! ## Specification -/

/-- The entries of the object stand for the map, each wire once and in ascending order. -/
def Entries (m m' : CMap Nat) : Prop := m'.keys.Pairwise (· < ·) ∧ ∀ k, m'.get k = m.get k

/-- The three objects of a row stand for the constraint. -/
def Row (c c' : Triple) : Prop := Entries c.1 c'.1 ∧ Entries c.2.1 c'.2.1 ∧ Entries c.2.2 c'.2.2

/-- The two constraints have the same coefficients. -/
def SameRow (c c' : Triple) : Prop :=
  ∀ k, c'.1.get k = c.1.get k ∧ c'.2.1.get k = c.2.1.get k ∧ c'.2.2.get k = c.2.2.get k

/-- The file written for the constraints. -/
def written (cs : List Triple) : Text :=
  (cs.foldl (fun (w : Writer) c => w.constraint (dump (transform c))) newConstraints).endConstraints

/-- Everything `--json` does to a program (cf. `exportSimplified` for `--r1cs`). -/
def jsonSimplified (sched : Sched) (fuel : List (Constraint Nat) → Nat) (ts : List Template) (field : Int) (flags : Flags) : Res Text := do
  let d ← buildDag ts
  let (smp, _) ← mapDag d field flags
  let out ← simplification sched fuel smp
  portList out.storage out.map

/-- The same with `--O0`. -/
def jsonPlain (ts : List Template) : Res Text := do
  let d ← buildDag ts
  portDag d

/-! ## The file of constraints -/

theorem row_sorted {c : Triple} (h1 : c.1.WF) (h2 : c.2.1.WF) (h3 : c.2.2.WF) :
    Row c (sorted c.1, sorted c.2.1, sorted c.2.2) :=
  ⟨⟨sorted_lt h1, get_sorted h1⟩, ⟨sorted_lt h2, get_sorted h2⟩, ⟨sorted_lt h3, get_sorted h3⟩⟩

/-- C95: for every list of constraints, also the empty one, the file is JSON, and its reader finds exactly these constraints, in this
order, with the wires of each linear combination in ascending order. -/
theorem C95_read (cs : List Triple) (hw : ∀ c ∈ cs, c.1.WF ∧ c.2.1.WF ∧ c.2.2.WF) :
    ∃ cs', readConstraints (written cs) = some cs' ∧ List.Forall₂ Row cs cs' := by
  refine ⟨_, by rw [written, file_eq]; exact read_file hw, ?_⟩
  rw [List.forall₂_map_right_iff]
  exact List.forall₂_same.2 fun c hc => row_sorted (hw c hc).1 (hw c hc).2.1 (hw c hc).2.2

/-- C95: the text does not depend on the order in which the hash maps are visited. -/
theorem C95_order (cs cs' : List Triple) (hw : ∀ c ∈ cs, c.1.WF ∧ c.2.1.WF ∧ c.2.2.WF)
    (h : List.Forall₂ (fun c c' => c.1.Perm c'.1 ∧ c.2.1.Perm c'.2.1 ∧ c.2.2.Perm c'.2.2) cs cs') : written cs = written cs' := by
  rw [written, written, file_eq, file_eq]
  have key : (cs.map fun c => dump (transform c)) = cs'.map fun c => dump (transform c) := by
    induction h with
    | nil => rfl
    | @cons c c' cs cs' hc h ih =>
      obtain ⟨h1, h2, h3⟩ := hw c (by simp)
      obtain ⟨p1, p2, p3⟩ := hc
      have w1 : c'.1.WF := (p1.map Prod.fst).nodup_iff.1 h1
      have w2 : c'.2.1.WF := (p2.map Prod.fst).nodup_iff.1 h2
      have w3 : c'.2.2.WF := (p3.map Prod.fst).nodup_iff.1 h3
      rw [List.map_cons, List.map_cons, ih fun x hx => hw x (by simp [hx]), transform_eq h1 h2 h3, transform_eq w1 w2 w3, row, row,
        sorted_perm h1 p1, sorted_perm h2 p2, sorted_perm h3 p3]
  rw [file, file, key]

/-- Both files of one program. -/
theorem both {data : R1cs.Data} (hfits : Fits data) (hw : ∀ c ∈ data.constraints, c.1.WF ∧ c.2.1.WF ∧ c.2.2.WF) :
    ∃ r cs', readFile (writeFile data) = .ok r ∧ readConstraints (file data.constraints) = some cs' ∧
      List.Forall₂ SameRow r.constraints cs' := by
  obtain ⟨r, f1, _, _, _, f5⟩ := C37_round_trip data hfits
  refine ⟨r, _, f1, read_file hw, ?_⟩
  rw [List.forall₂_map_right_iff]
  refine List.Forall₂.flip (List.Forall₂.imp ?_ ((List.forall₂_and_left _ _).2 ⟨hw, f5⟩))
  rintro c c' ⟨⟨h1, h2, h3⟩, s1, s2, s3⟩ k
  simp only [get_sorted h1, get_sorted h2, get_sorted h3, s1.2 k, s2.2 k, s3.2 k, and_self]

variable {p : Nat}

theorem walk_map {σ τ : Type} (g : σ → τ) (d : Graph) (f : σ → Tree → Res σ) (f' : τ → Tree → Res τ)
    (hf : ∀ s t s', f s t = .ok s' → f' (g s) t = .ok (g s')) (n : Nat) : ∀ (t : Tree) (s s' : σ),
      Dag.walk d f n t s = .ok s' → Dag.walk d f' n t (g s) = .ok (g s') := by
  induction n with
  | zero => intro t s s' h; simp [Dag.walk] at h
  | succ n ih =>
    intro t s s' h
    simp only [Dag.walk] at h ⊢
    cases h1 : f s t with
    | error e => rw [h1] at h; cases h
    | ok s1 =>
      rw [h1, ok_bind] at h
      rw [hf s t s1 h1, ok_bind]
      cases h2 : t.edges d with
      | error e => rw [h2] at h; cases h
      | ok es =>
        rw [h2, ok_bind] at h
        rw [ok_bind]
        clear h1 h2
        induction es generalizing s1 with
        | nil => cases h; rfl
        | cons e es ihe =>
          rw [List.foldlM_cons] at h ⊢
          cases h3 : t.goTo d e with
          | error e => rw [h3] at h; cases h
          | ok sub =>
            rw [h3, ok_bind] at h
            rw [ok_bind]
            cases h4 : Dag.walk d f n sub s1 with
            | error e => rw [h4] at h; cases h
            | ok s2 =>
              rw [h4, ok_bind] at h
              rw [ih sub s1 s2 h4, ok_bind]
              exact ihe s2 h

theorem portDag_eq (d : Graph) (cs : List Dag.C) (n : Nat) (h : constraintSection d = .ok (cs, n)) :
    portDag d = .ok (file (cs.map fun c => (c.a, c.b, c.c))) := by
  unfold constraintSection at h
  unfold portDag
  cases ht : Tree.new d with
  | error e => rw [ht] at h; cases h
  | ok t =>
    rw [ht, ok_bind] at h
    rw [ok_bind]
    have := walk_map (fun acc : List Dag.C × Nat =>
      acc.1.foldl (fun (w : Writer) c => w.constraint (dump (transform (c.a, c.b, c.c)))) newConstraints) d _ visitTree (by
        intro s t s' hs
        simp only [Except.ok.injEq] at hs
        subst hs
        simp only [visitTree, List.foldl_append]) _ _ _ _ h
    simp only [List.foldl_nil] at this
    rw [this, ok_bind]
    have h2 := file_eq (cs.map fun c => (c.a, c.b, c.c))
    rw [List.foldl_map] at h2
    exact congrArg _ h2

/-- C95 without simplification: the file of constraints has the rows of the constraint file, in the same order and with the same wires
and coefficients.
Missing: templates declaring one name twice, as for C34. -/
theorem C95_plain_partial (hp : p.Prime) {ts : List Template} (h : Program p ts) (custom : Bool) (hname : custom = true → GateNames ts) :
    ∃ lines data text cs', exportPlain ts p custom = .ok (lines, data) ∧ jsonPlain ts = .ok text ∧ readConstraints text = some cs' ∧
      List.Forall₂ Row data.constraints cs' ∧
      (Small data → ∃ r, readFile (writeFile data) = .ok r ∧ List.Forall₂ SameRow r.constraints cs') := by
  obtain ⟨d, hd, hb, he⟩ := plain_facts h hname
  have hmain := List.getLast?_eq_getLast_of_ne_nil h.nonempty
  obtain ⟨lines, data, he', hH, _⟩ := C55_plain_partial h hmain custom hname
  obtain ⟨smp, enc, h2, hm⟩ := mapDag_eq h.named.order h.orderedKnown h.nonempty hb p ⟨0, false, false⟩
  have hv := mapped_valid h hb hm
  have hdata : dagData d p custom = .ok data := by
    unfold exportPlain at he'
    rw [hd, ok_bind] at he'
    cases hx : dagData d p custom with
    | error e => rw [hx] at he'; cases he'
    | ok x =>
      rw [hx, ok_bind] at he'
      cases hy : dagSym d with
      | error e => rw [hy] at he'; cases he'
      | ok y =>
        rw [hy, ok_bind] at he'
        injection he' with he'
        rw [(Prod.mk.inj he').2]
  have hcs : data.constraints = (allConstraints ts d).map fun c => (c.a, c.b, c.c) := by
    rw [he] at he'
    injection he' with he'
    rw [← (Prod.mk.inj he').2]
  have hwf : ∀ c ∈ data.constraints, c.1.WF ∧ c.2.1.WF ∧ c.2.2.WF := by
    intro c hc
    rw [hcs] at hc
    obtain ⟨k, hk, rfl⟩ := List.mem_map.1 hc
    have ht := hv.tidy k ((original_perm hm).mem_iff.2 hk)
    exact ⟨(ht k.a (by simp)).1, (ht k.b (by simp)).1, (ht k.c (by simp)).1⟩
  have hsec : ∃ cs n, constraintSection d = .ok (cs, n) ∧ data.constraints = cs.map fun c => (c.a, c.b, c.c) := by
    unfold dagData at hdata
    cases hx : constraintSection d with
    | error e => rw [hx] at hdata; cases hdata
    | ok x =>
      obtain ⟨cs, n⟩ := x
      rw [hx, ok_bind] at hdata
      refine ⟨cs, n, rfl, ?_⟩
      dsimp only at hdata
      cases hl : d.nodes.getLast? with
      | none => rw [hl] at hdata; cases hdata
      | some main =>
        rw [hl] at hdata
        dsimp only at hdata
        generalize (if custom = true then _ else _ : Res (Option (List (List Nat × List Int) × List (Nat × List Nat)))) = cu at hdata
        cases cu with
        | error e => cases hdata
        | ok cu =>
          rw [ok_bind] at hdata
          injection hdata with hdata
          rw [← hdata]
  obtain ⟨cs, n, hs, hc⟩ := hsec
  refine ⟨lines, data, file data.constraints, _, he', ?_, read_file hwf, ?_, fun hsmall => ?_⟩
  · unfold jsonPlain
    rw [hd, ok_bind, portDag_eq d cs n hs, hc]
  · rw [List.forall₂_map_right_iff]
    exact List.forall₂_same.2 fun c hc => row_sorted (hwf c hc).1 (hwf c hc).2.1 (hwf c hc).2.2
  · obtain ⟨a1, a2⟩ := noPriv_lt h hmain
    have hfits := hH.fits hp.pos (by rw [hH.labels]; exact a1) (by rw [hH.labels]; exact a2) hwf hsmall
    obtain ⟨r, cs', r1, r2, r3⟩ := both hfits hwf
    rw [read_file hwf] at r2
    injection r2 with r2
    subst r2
    exact ⟨r, r1, r3⟩

/-- C95 with simplification.
Missing: templates declaring one name twice, as for C34. -/
theorem C95_simplified_partial (hp : p.Prime) {sched : Sched} (hs : sched.Valid) {fuel : List (Constraint Nat) → Nat} (hfuel : EnoughFuel fuel)
    {order : BMap Nat → List (Nat × Nat)} (horder : ∀ m, (order m).Perm m) {ts : List Template} (h : Program p ts) (flags : Flags)
    (custom : Bool) (hname : custom = true → GateNames ts) :
    ∃ lines data text cs', exportSimplified sched fuel order ts p flags custom = .ok (lines, data) ∧
      jsonSimplified sched fuel ts p flags = .ok text ∧ readConstraints text = some cs' ∧ List.Forall₂ Row data.constraints cs' ∧
      (Small data → ∃ r, readFile (writeFile data) = .ok r ∧ List.Forall₂ SameRow r.constraints cs') := by
  obtain ⟨d, smp, enc, out, w, lines, data, he, hf⟩ := export_facts hp hs hfuel horder h flags hname
  have hmain := List.getLast?_eq_getLast_of_ne_nil h.nonempty
  obtain ⟨lines', data', he', hH⟩ := C55_simplified_partial hp hs hfuel horder h hmain flags custom hname
  rw [he] at he'; injection he' with he'
  rw [Prod.mk.injEq] at he'
  obtain ⟨hl, hdata⟩ := he'
  subst hl hdata
  set f : Nat → Nat := fun x => (BMap.get out.map x).getD 0 with hfdef
  have hcs : data.constraints = out.storage.map fun c => ((rename f c).a, (rename f c).b, (rename f c).c) := by rw [hf.data]
  have hinj : ∀ c ∈ out.storage, ∀ x ∈ wires c, ∀ y ∈ wires c, f x = f y → x = y := by
    intro c hc x hx y hy hxy
    obtain ⟨i, hi, _⟩ := (hf.storage c hc).2 x hx
    obtain ⟨j, hj, _⟩ := (hf.storage c hc).2 y hy
    simp only [hfdef, hi, hj, Option.getD_some] at hxy
    subst hxy
    have b1 := hf.mono _ _ _ _ hi hj
    have b2 := hf.mono _ _ _ _ hj hi
    omega
  have hwf : ∀ c ∈ data.constraints, c.1.WF ∧ c.2.1.WF ∧ c.2.2.WF := by
    intro c hc
    rw [hcs] at hc
    obtain ⟨k, hk, rfl⟩ := List.mem_map.1 hc
    have ht := (hf.storage k hk).1
    have hi := hinj k hk
    refine ⟨wf_rename f (ht k.a (by simp)).1 ?_, wf_rename f (ht k.b (by simp)).1 ?_, wf_rename f (ht k.c (by simp)).1 ?_⟩
    · exact fun x hx y hy => hi x ((mem_wires k x).2 (Or.inl hx)) y ((mem_wires k y).2 (Or.inl hy))
    · exact fun x hx y hy => hi x ((mem_wires k x).2 (Or.inr (Or.inl hx))) y ((mem_wires k y).2 (Or.inr (Or.inl hy)))
    · exact fun x hx y hy => hi x ((mem_wires k x).2 (Or.inr (Or.inr hx))) y ((mem_wires k y).2 (Or.inr (Or.inr hy)))
  have hld : listData smp enc out (order out.map) custom = .ok data := by
    unfold exportSimplified at he
    rw [hf.graph, ok_bind, hf.list, ok_bind] at he
    dsimp only at he
    rw [hf.run, ok_bind] at he
    cases hx : listData smp enc out (order out.map) custom with
    | error e => rw [hx] at he; cases he
    | ok x =>
      rw [hx, ok_bind] at he
      cases hy : listSym enc out.map with
      | error e => rw [hy] at he; cases he
      | ok y =>
        rw [hy, ok_bind] at he
        injection he with he
        rw [(Prod.mk.inj he).2]
  have hsec : ∃ cs, out.storage.mapM (fun c => c.applyCorrespondence (fun s => BMap.get out.map s)) = .ok cs ∧
      data.constraints = cs.map fun c => (c.a, c.b, c.c) := by
    unfold listData at hld
    cases hx : out.storage.mapM (fun c => c.applyCorrespondence (fun s => BMap.get out.map s)) with
    | error e => rw [hx] at hld; cases hld
    | ok cs =>
      rw [hx, ok_bind] at hld
      refine ⟨cs, rfl, ?_⟩
      cases hy : witnessVec (order out.map) with
      | error e => rw [hy] at hld; cases hld
      | ok v =>
        rw [hy, ok_bind] at hld
        generalize (if custom = true then _ else _ : Res (Option (List (List Nat × List Int) × List (Nat × List Nat)))) = cu at hld
        cases cu with
        | error e => cases hld
        | ok cu =>
          rw [ok_bind] at hld
          injection hld with hld
          rw [← hld]
  obtain ⟨cs, hm, hc⟩ := hsec
  refine ⟨lines, data, file data.constraints, _, he, ?_, read_file hwf, ?_, fun hsmall => ?_⟩
  · unfold jsonSimplified
    rw [hf.graph, ok_bind, hf.list, ok_bind]
    dsimp only
    rw [hf.run, ok_bind, portList_eq out.map out.storage cs hm, hc]
  · rw [List.forall₂_map_right_iff]
    exact List.forall₂_same.2 fun c hc => row_sorted (hwf c hc).1 (hwf c hc).2.1 (hwf c hc).2.2
  · obtain ⟨a1, a2⟩ := noPriv_lt h hmain
    have hfits := hH.fits hp.pos (by rw [hH.labels]; exact a1) (by rw [hH.labels]; exact a2) hwf hsmall
    obtain ⟨r, cs', r1, r2, r3⟩ := both hfits hwf
    rw [read_file hwf] at r2
    injection r2 with r2
    subst r2
    exact ⟨r, r1, r3⟩

/-! ## The file of substitutions -/

/-- C95: whatever the batches in which the substitutions are logged, also if there are none, the file is JSON, and its reader finds
exactly these signals with their linear combinations, in this order. -/
theorem C95_substitutions (bs : List (List (Nat × CMap Nat))) (hw : ∀ s ∈ bs.flatten, s.2.WF) :
    ∃ ss, readSubstitutions (substitutionFile bs) = some ss ∧
      List.Forall₂ (fun s s' => s'.1 = s.1 ∧ Entries s.2 s'.2) bs.flatten ss := by
  refine ⟨_, read_substitutions hw, ?_⟩
  rw [List.forall₂_map_right_iff]
  exact List.forall₂_same.2 fun s hs => ⟨rfl, sorted_lt (hw s hs), get_sorted (hw s hs)⟩

/-! ## Cases -/

example : ∀ c ∈ ([([(12, 3), (2, 7)], [], [(0, 1)]), ([], [], [])] : List Triple), c.1.WF ∧ c.2.1.WF ∧ c.2.2.WF := by
  simp [CMap.WF, CMap.keys]

/-- A file of two constraints, with the wires 12 and 2 in this order in the map. -/
example : String.ofList (written [([(12, 3), (2, 7)], [], [(0, 1)]), ([], [], [(1, 5)])]) =
    "{\n\"constraints\": [\n[{\"2\":\"7\",\"12\":\"3\"},{},{\"0\":\"1\"}],\n[{},{},{\"1\":\"5\"}]\n]\n}" := by decide +kernel

example : (match readConstraints (written [([(12, 3), (2, 7)], [], [(0, 1)]), ([], [], [(1, 5)])]) with
    | some [c, c'] => decide (c.1 = [(2, 7), (12, 3)] ∧ c.2.1 = [] ∧ c.2.2 = [(0, 1)] ∧ c'.1 = [] ∧ c'.2.1 = [] ∧ c'.2.2 = [(1, 5)])
    | _ => false) = true := by decide +kernel

/-- No constraints. -/
example : String.ofList (written []) = "{\n\"constraints\": [\n]\n}" := by decide +kernel

/-- The reader refuses a text without the comma. -/
example : (readConstraints "{\"constraints\": [[{},{},{}] [{},{},{}]]}".toList).isNone := by decide +kernel

example : String.ofList (substitutionFile [[], [(7, [(3, 2), (0, 5)])], [(9, [])]]) =
    "{\n\"7\" : {\"0\":\"5\",\"3\":\"2\"},\n\"9\" : {}\n}" := by decide +kernel

/-- The demonstration program of the constraint file. -/
example : Program 13 demo ∧ GateNames demo := by decide +kernel

example : (match jsonSimplified plain enough demo 13 ⟨10, false, false⟩ with
    | .ok t => decide (String.ofList t = "{\n\"constraints\": [\n[{\"6\":\"1\"},{\"5\":\"5\",\"8\":\"1\"},{\"1\":\"1\"}],\n" ++
        "[{\"2\":\"6\",\"4\":\"3\"},{\"7\":\"1\"},{\"8\":\"1\"}]\n]\n}")
    | _ => false) = true := by decide +kernel

end Verif.Props.JsonOut
