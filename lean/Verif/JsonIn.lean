import Verif.Inputs

/-!
# The file of inputs

Model of the reading of the JSON file of inputs by the two witness programs: `qualify_input` and `json2FrElements` of
`/repo/code_producers/src/c_elements/common/main.cpp:126-263` (the same in `common64/main.cpp`), and `qualify_input`, `flatArray` and
`normalize` of `/repo/code_producers/src/wasm_elements/common/witness_calculator.js:131-170,281-319,347-367`.

The text has been parsed: a JSON value is a tree with the entries of its objects in the order of the text.  The parsers of the two
languages are modelled in so far as they differ (`cppDom`, `jsDom`).  An integer literal keeps its exact value; the conversion to a
double, which both programs make, is `near`.
-/

namespace Verif.JsonIn

/-- A value of JSON that is neither array nor object.  `flt n d` is a number literal with a fraction or an exponent whose double is
`n/d`. -/
inductive Sc where
  | int (z : Int)
  | flt (n : Int) (d : Nat)
  | str (s : String)
  | bool (b : Bool)
  | null
  deriving DecidableEq, Repr

mutual
/-- A JSON value. -/
inductive J where
  | sc (s : Sc)
  | arr (l : JL)
  | obj (o : JO)

/-- The elements of an array. -/
inductive JL where
  | nil
  | cons (j : J) (l : JL)

/-- The entries of an object. -/
inductive JO where
  | nil
  | cons (k : String) (j : J) (o : JO)
end

/-- The entries as a list. -/
def JO.toList : JO → List (String × J)
  | .nil => []
  | .cons k j o => (k, j) :: o.toList

/-- The elements as a list. -/
def JL.toList : JL → List J
  | .nil => []
  | .cons j l => j :: l.toList

/-- `in1[prefix] = in` and the parser's store of an entry for `nlohmann::json` (main.cpp:228,231,239): objects are ordered maps. -/
def JO.put (k : String) (v : J) : JO → JO
  | .nil => .cons k v .nil
  | .cons k' v' o => if k = k' then .cons k v o else if k < k' then .cons k v (.cons k' v' o) else .cons k' v' (o.put k v)

/-- `input1[prefix] = input` in JavaScript: in place, or a new property at the end.  (Properties that look like numbers come first in
`Object.keys`; not modelled.) -/
def JO.set (k : String) (v : J) : JO → JO
  | .nil => .cons k v .nil
  | .cons k' v' o => if k = k' then .cons k v o else .cons k' v' (o.set k v)

mutual
/-- `inStream >> jin` (main.cpp:246): every object becomes an ordered map. -/
def cppDom : J → J
  | .sc s => .sc s
  | .arr l => .arr (cppDomL l)
  | .obj o => .obj (cppDomO .nil o)

def cppDomL : JL → JL
  | .nil => .nil
  | .cons j l => .cons (cppDom j) (cppDomL l)

def cppDomO : JO → JO → JO
  | acc, .nil => acc
  | acc, .cons k j o => cppDomO (acc.put k (cppDom j)) o
end

mutual
/-- `JSON.parse` (`/repo/code_producers/src/wasm_elements/common/generate_witness.js:7`). -/
def jsDom : J → J
  | .sc s => .sc s
  | .arr l => .arr (jsDomL l)
  | .obj o => .obj (jsDomO .nil o)

def jsDomL : JL → JL
  | .nil => .nil
  | .cons j l => .cons (jsDom j) (jsDomL l)

def jsDomO : JO → JO → JO
  | acc, .nil => acc
  | acc, .cons k j o => jsDomO (acc.set k (jsDom j)) o
end

/-! ### Numbers -/

/-- A natural number to 53 bits, half to even. -/
def nearNat (n : Nat) : Nat :=
  let e := Nat.log2 n - 52
  if e = 0 then n
  else
    let q := n / 2 ^ e
    let r := n % 2 ^ e
    if 2 ^ (e - 1) < r ∨ (r = 2 ^ (e - 1) ∧ q % 2 = 1) then (q + 1) * 2 ^ e else q * 2 ^ e

/-- The double nearest to an integer; `none` if there is none. -/
def near (z : Int) : Option Int :=
  if nearNat z.natAbs < 2 ^ 1024 then some (z.sign * nearNat z.natAbs) else none

/-- A double printed with `std::fixed << std::setprecision(0)` (main.cpp:172-173): half to even. -/
def fixed0 (n : Int) (d : Nat) : Int :=
  let q := n / d
  let r := n % d
  if (d : Int) < 2 * r ∨ (2 * r = d ∧ q % 2 = 1) then q + 1 else q

/-- The digit a character stands for. -/
def charVal (c : Char) : Nat :=
  if '0' ≤ c ∧ c ≤ '9' then c.toNat - 48 else if 'a' ≤ c ∧ c ≤ 'f' then c.toNat - 87 else c.toNat - 55

/-- The number of some digits. -/
def digitsVal (base : Nat) (l : List Char) : Nat := l.foldl (fun r c => base * r + charVal c) 0

/-- main.cpp:126-142 `check_valid_number`, for one character. -/
def validChar (base : Nat) (c : Char) : Bool :=
  if base = 16 then ('0' ≤ c ∧ c ≤ '9') ∨ ('a' ≤ c ∧ c ≤ 'f') ∨ ('A' ≤ c ∧ c ≤ 'F')
  else '0' ≤ c ∧ c.toNat < 48 + base

/-- main.cpp:150-163: the digits and the base. -/
def splitBase : List Char → Nat × List Char
  | '0' :: 'b' :: r => (2, r)
  | '0' :: 'B' :: r => (2, r)
  | '0' :: 'o' :: r => (8, r)
  | '0' :: 'O' :: r => (8, r)
  | '0' :: 'x' :: r => (16, r)
  | '0' :: 'X' :: r => (16, r)
  | s => (10, s)

/-- main.cpp:149-169 for a string.  `mpz_init_set_str` of no digits leaves 0. -/
def cppStr (s : String) : Option Int :=
  let (base, r) := splitBase s.toList
  if r.all (validChar base) then some (digitsVal base r) else none

/-- main.cpp:145-181: the integer `Fr_str2element` is called with. -/
def cppNum : Sc → Option Int
  | .str s => cppStr s
  | .int z => near z
  | .flt n d => some (fixed0 n d)
  | .bool _ => none
  | .null => none

/-- Characters `BigInt` removes at both ends of a string. -/
def jsSpace (c : Char) : Bool :=
  c.toNat ∈ [9, 10, 11, 12, 13, 32, 160, 0x1680, 0x2000, 0x2001, 0x2002, 0x2003, 0x2004, 0x2005, 0x2006, 0x2007, 0x2008, 0x2009, 0x200A,
    0x2028, 0x2029, 0x202F, 0x205F, 0x3000, 0xFEFF]

/-- At least one digit, and only digits. -/
def jsDigits (base : Nat) (r : List Char) : Option Nat :=
  if r ≠ [] ∧ r.all (validChar base) then some (digitsVal base r) else none

/-- `BigInt(s)` of a string without outer spaces: a sign only before decimal digits. -/
def jsTrimmed : List Char → Option Int
  | [] => some 0
  | '+' :: r => (jsDigits 10 r).map Int.ofNat
  | '-' :: r => (jsDigits 10 r).map fun n => -(n : Int)
  | s => (jsDigits (splitBase s).1 (splitBase s).2).map Int.ofNat

/-- `BigInt(s)` of a string. -/
def jsStr (s : String) : Option Int :=
  jsTrimmed ((s.toList.dropWhile jsSpace).reverse.dropWhile jsSpace).reverse

/-- `BigInt(n)` (witness_calculator.js:364); `none` for an exception. -/
def jsNum : Sc → Option Int
  | .str s => jsStr s
  | .int z => near z
  | .flt n d => if (d : Int) ∣ n then some (n / d) else none
  | .bool b => some (if b then 1 else 0)
  | .null => none

/-- `normalize` after `BigInt` (witness_calculator.js:363-367); `%` truncates. -/
def jsNormal (q z : Int) : Int := if Int.tmod z q < 0 then Int.tmod z q + q else Int.tmod z q

/-! ### The C++ program -/

/-- The kinds of `json::value_t` that matter. -/
inductive Kind where
  | integer | float | boolean | null | object
  deriving DecidableEq, Repr

/-- `check_type` of what is neither array nor object (main.cpp:191-194): an integer literal is kept as an integer if it has 64 bits. -/
def kindSc : Sc → Kind
  | .int z => if -2 ^ 63 ≤ z ∧ z < 2 ^ 64 then .integer else .float
  | .flt _ _ => .float
  | .str _ => .integer
  | .bool _ => .boolean
  | .null => .null

mutual
/-- main.cpp:190-206 `check_type`; `none` is the failed assertion. -/
def checkType : J → Option Kind
  | .sc s => some (kindSc s)
  | .obj _ => some .object
  | .arr .nil => some .null
  | .arr (.cons j l) =>
    match checkType j with
    | none => none
    | some t => if checkRest t l then some t else none

/-- main.cpp:198-203: all others have the type of the first. -/
def checkRest (t : Kind) : JL → Bool
  | .nil => true
  | .cons j l => checkType j == some t && checkRest t l
end

/-- `prefix.length() == 0 ? key : prefix + "." + key` (main.cpp:235, witness_calculator.js:313). -/
def dot (p k : String) : String := if p = "" then k else p ++ "." ++ k

/-- `prefix + "[" + i + "]"` (main.cpp:213, witness_calculator.js:284). -/
def bracket (p : String) (i : Nat) : String := p ++ "[" ++ Nat.repr i ++ "]"

mutual
/-- main.cpp:221-241 `qualify_input`; `none` is the failed assertion. -/
def cppQual (p : String) (j : J) (m : JO) : Option JO :=
  match j with
  | .sc s => some (m.put p (.sc s))
  | .arr l =>
    if l.toList.length = 0 then some (m.put p (.arr l))
    else (checkType (.arr l)).bind fun t => if t = .object then cppQualL p l 0 m else some (m.put p (.arr l))
  | .obj o => cppQualO p o m
termination_by structural j

/-- main.cpp:210-219 `qualify_input_list` on an element: an array, or a call of `qualify_input` (its body inserted). -/
def cppQualE (p : String) (j : J) (m : JO) : Option JO :=
  match j with
  | .sc s => some (m.put p (.sc s))
  | .arr l => cppQualL p l 0 m
  | .obj o => cppQualO p o m
termination_by structural j

/-- main.cpp:212-215. -/
def cppQualL (p : String) (l : JL) (i : Nat) (m : JO) : Option JO :=
  match l with
  | .nil => some m
  | .cons j l =>
    match cppQualE (bracket p i) j m with
    | none => none
    | some m' => cppQualL p l (i + 1) m'
termination_by structural l

/-- main.cpp:234-237. -/
def cppQualO (p : String) (o : JO) (m : JO) : Option JO :=
  match o with
  | .nil => some m
  | .cons k j o =>
    match cppQual (dot p k) j m with
    | none => none
    | some m' => cppQualO p o m'
termination_by structural o
end

mutual
/-- main.cpp:144-188 `json2FrElements`: the elements, each as its number below the prime (for the elements themselves see `Frg`). -/
def cppVals (q : Int) : J → Option (List Int)
  | .sc s => (cppNum s).map fun z => [z % q]
  | .obj _ => none
  | .arr l => cppValsL q l

def cppValsL (q : Int) : JL → Option (List Int)
  | .nil => some []
  | .cons j l =>
    match cppVals q j with
    | none => none
    | some a => (cppValsL q l).map fun b => a ++ b
end

/-- main.cpp:259-263: the names with their values, for all names.  The program loads each name before it reads the next values; a file
that is refused is refused in any case. -/
def cppItems (q : Int) : JO → Option (List (String × List Int))
  | .nil => some []
  | .cons k j o =>
    match cppVals q j with
    | none => none
    | some v => (cppItems q o).map fun r => (k, v) :: r

/-- main.cpp:243-263: what is loaded for a file. -/
def cppInputs (q : Int) (j : J) : Option (List (String × List Int)) :=
  match cppQual "" (cppDom j) .nil with
  | none => none
  | some m => cppItems q m

/-! ### The JavaScript program -/

/-- What `typeof` yields. -/
inductive Typ where
  | number | string | boolean | object
  deriving DecidableEq, Repr

/-- `typeof` of what is not an array. -/
def typeofSc : Sc → Typ
  | .int _ => .number
  | .flt _ _ => .number
  | .str _ => .string
  | .bool _ => .boolean
  | .null => .object

/-- `typeof`; arrays are objects. -/
def typeof : J → Typ
  | .sc s => typeofSc s
  | .arr _ => .object
  | .obj _ => .object

mutual
/-- witness_calculator.js:347-361 `flatArray`. -/
def flat : J → List J
  | .sc s => [.sc s]
  | .obj o => [.obj o]
  | .arr l => flatL l

def flatL : JL → List J
  | .nil => []
  | .cons j l => flat j ++ flatL l
end

/-- `input1[prefix] = input` (witness_calculator.js:305,308,317).  The property `__proto__` of an object is not one of its keys. -/
def jsStore (p : String) (v : J) (m : JO) : JO := if p = "__proto__" then m else m.set p v

/-- witness_calculator.js:295-302: whether the values in an array are objects; `none` if they are not of one type. -/
def jsCheck : List J → Option Bool
  | [] => some false
  | a :: as => if as.all (fun x => typeof x = typeof a) then some (typeof a = .object) else none

mutual
/-- witness_calculator.js:292-319 `qualify_input`; `none` is an exception.  `Object.keys(null)` throws. -/
def jsQual (p : String) (j : J) (m : JO) : Option JO :=
  match j with
  | .sc s => if s = .null then none else some (jsStore p (.sc s) m)
  | .arr l => (jsCheck (flatL l)).bind fun t => if t then jsQualL p l 0 m else some (jsStore p (.arr l) m)
  | .obj o => jsQualO p o m
termination_by structural j

/-- witness_calculator.js:281-290 `qualify_input_list` on an element. -/
def jsQualE (p : String) (j : J) (m : JO) : Option JO :=
  match j with
  | .sc s => if s = .null then none else some (jsStore p (.sc s) m)
  | .arr l => jsQualL p l 0 m
  | .obj o => jsQualO p o m
termination_by structural j

/-- witness_calculator.js:283-286. -/
def jsQualL (p : String) (l : JL) (i : Nat) (m : JO) : Option JO :=
  match l with
  | .nil => some m
  | .cons j l =>
    match jsQualE (bracket p i) j m with
    | none => none
    | some m' => jsQualL p l (i + 1) m'
termination_by structural l

/-- witness_calculator.js:311-315. -/
def jsQualO (p : String) (o : JO) (m : JO) : Option JO :=
  match o with
  | .nil => some m
  | .cons k j o =>
    match jsQual (dot p k) j m with
    | none => none
    | some m' => jsQualO p o m'
termination_by structural o
end

/-- `normalize(fArr[i], this.prime)` for all values (witness_calculator.js:145,157); `BigInt` of an object throws. -/
def jsVals (q : Int) : List J → Option (List Int)
  | [] => some []
  | .sc s :: l =>
    match jsNum s with
    | none => none
    | some z => (jsVals q l).map fun r => jsNormal q z :: r
  | _ :: _ => none

/-- witness_calculator.js:139-170: the names with their values. -/
def jsItems (q : Int) : JO → Option (List (String × List Int))
  | .nil => some []
  | .cons k j o =>
    match jsVals q (flat j) with
    | none => none
    | some v => (jsItems q o).map fun r => (k, v) :: r

/-- witness_calculator.js:131-170: what is loaded for a file. -/
def jsInputs (q : Int) (j : J) : Option (List (String × List Int)) :=
  match jsQual "" (jsDom j) .nil with
  | none => none
  | some m => jsItems q m

end Verif.JsonIn
