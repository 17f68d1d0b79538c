import Verif.Model.Access
import Verif.Model.Define
import Verif.Spec.Sample

/-!
# Checking the model against the project's own tests

The project's tests (/repo/tests) state what the C code does on particular inputs. The modules of this directory give
the same inputs to the model and ask for the same answers. These are tests of the model, not proofs of properties: they
could reveal that the model is not the code.
-/

set_option autoImplicit false

namespace Argus.Tests

/-- The float texts of the tests: `strtof` widened to double, and `strtod`. -/
def floats : List (Str × F64 × F64) :=
  [ (c!"3.14159", 0x400921fa00000000#64, 0x400921f9f01b866e#64),
    (c!"-2.718", 0xc005be76c0000000#64, 0xc005be76c8b43958#64),
    (c!"0.0", 0#64, 0#64),
    (c!"1.23e-4", 0x3f201f3200000000#64, 0x3f201f31f46ed246#64),
    (c!"3.14", 0x40091eb860000000#64, 0x40091eb851eb851f#64),
    (c!"2.71", 0x4005ae1480000000#64, 0x4005ae147ae147ae#64),
    (c!"1.41", 0x3ff68f5c20000000#64, 0x3ff68f5c28f5c28f#64),
    (c!"0.57", 0x3fe23d70a0000000#64, 0x3fe23d70a3d70a3d#64),
    (c!"-1.41", 0xbff68f5c20000000#64, 0xbff68f5c28f5c28f#64) ]

def single (s : Str) : F64 := ((floats.find? (fun p => p.1 == s)).map (·.2.1)).getD 0

def double (s : Str) : F64 := ((floats.find? (fun p => p.1 == s)).map (·.2.2)).getD 0

/-- Digits only, `^\\d+$`. -/
def digits : Str := c!"^\\d+$"

/-- The e-mail pattern of the tests. -/
def email : Str := c!"^[a-zA-Z0-9._%+-]+@[a-zA-Z0-9.-]+\\.[a-zA-Z]{2,}$"

/-- The subjects that PCRE2 matches, among those of the tests. -/
def matched : List (Str × Str) :=
  [ (digits, c!"123"), (digits, c!"0"), (email, c!"test@example.com"), (email, c!"user.name+tag@example.co.uk") ]

/-- A letter or a digit, `isalnum` in the "C" locale. -/
def alnum (b : Byte) : Bool := isDigit b || (65 ≤ b && b ≤ 90) || (97 ≤ b && b ≤ 122)

/-- The user validators of tests/integration/test_validators.c:10-67: 1 is even, 2 positive, 3 alphanumeric, 4 divisible
    by 5. -/
def validator (id : Nat) (o : Opt) : Int × Option Int :=
  let n := match o.asInt with | .ok n => n | .ub _ => 0
  let s := match o.asString with | .ok s => s | .ub _ => none
  let good := match id with
    | 1 => n.tmod 2 == 0
    | 2 => decide (0 < n)
    | 3 => (s.getD []).all alnum
    | _ => n.tmod 5 == 0
  if good then (Err.success, none) else (Err.invalidValue, some Err.invalidValue)

/-- The world of the tests: actions return 0. -/
def world : World :=
  { Sample.world with
    strtof := single
    strtod := fun s => (double s, if floats.any (fun p => p.1 == s) then s.length else 0)
    regexAvailable := true
    regex := fun p s => if matched.contains (p, s.getD []) then .isMatch else .noMatch
    postValidator := validator
    action := fun _ _ => 0
    strtof_low := fun s => by
      unfold single floats
      simp only [List.find?]
      repeat' split
      all_goals decide
    strtod_consumed := fun s => by dsimp only; split <;> simp }

/-- `HELP(...)`: the texts are of no importance here. -/
def _root_.Argus.Opt.helped (o : Opt) : Opt := { o with help := some c!"help" }

/-- `FLAGS(FLAG_OPTIONAL)` on a positional argument. -/
def _root_.Argus.Opt.optional (o : Opt) : Opt := { o with flags := 0 }

/-- `VALIDATOR(...)`. -/
def _root_.Argus.Opt.checked (o : Opt) (vs : List Validator) : Opt := { o with validators := some vs }

/-- What a test expects of a cell: `.as_string`, `.as_int`, `.as_bool`, `.as_float`, `.raw == 0`. -/
inductive View where
  | str (s : Str)
  | int (n : Int)
  | bool (b : Bool)
  | float (x : F64)
  | zero

/-- Does a call give this answer? -/
def gives {α : Type} [DecidableEq α] (x : Out α) (v : α) : Bool :=
  match x with
  | .ok y => decide (y = v)
  | .ub _ => false

def View.of (w : Word) : View → Bool
  | .str s => gives w.asString (some s)
  | .int n => gives w.asInt n
  | .bool b => gives w.asBool b
  | .float x => gives w.asFloat x
  | .zero => w == .null

/-- Does a call give such a cell? -/
def seen (x : Out Word) (v : View) : Bool :=
  match x with
  | .ok w => v.of w
  | .ub _ => false

/-- Are these the cells? -/
def allSeen : List Word → List View → Bool
  | [], [] => true
  | w :: ws, v :: vs => v.of w && allSeen ws vs
  | [], _ :: _ => false
  | _ :: _, [] => false

/-- What a test expects of the state after a parse. -/
inductive Want where
  /-- `argus_is_set` -/
  | set (path : Str) (b : Bool)
  /-- `argus_get` -/
  | get (path : Str) (v : View)
  /-- `argus_count` -/
  | count (path : Str) (n : Nat)
  /-- `argus_array_get` -/
  | at (path : Str) (i : Nat) (v : View)
  /-- `argus_map_get` -/
  | key (path key : Str) (v : View)
  /-- what the iterators give -/
  | items (path : Str) (vs : List View)
  | entries (path : Str) (keys : List Str) (vs : List View)
  /-- `argus_has_command` -/
  | command (b : Bool)
  /-- `argus_exec` calls this action and returns 0 -/
  | exec (id : Nat)
  /-- `argus_exec` returns something else -/
  | noExec

/-- The values read with an array iterator, `n` calls of `argus_array_next`. -/
def readAll : Nat → ArrayIt → Out (List Word)
  | 0, _ => .ok []
  | n + 1, it => do
    match ← argusArrayNext it with
    | (false, _) => .ok []
    | (true, it1) => do
      let r ← readAll n it1
      .ok (it1.value :: r)

/-- The entries read with a map iterator. -/
def readEntries : Nat → MapIt → Out (List (Str × Word))
  | 0, _ => .ok []
  | n + 1, it => do
    match ← argusMapNext it with
    | (false, _) => .ok []
    | (true, it1) => do
      let r ← readEntries n it1
      .ok ((it1.key.getD [], it1.value) :: r)

/-- The cell `argus_get` returns. -/
def cell (a : Argus) (path : Str) : Out Word := do
  let r ← argusGet a path
  match r.1 with
  | .word w => .ok w
  | _ => .ub .badCallback

def Want.holds (a : Argus) : Want → Bool
  | .set p b => gives (do let r ← argusIsSet a p; .ok r.1) b
  | .get p v => seen (cell a p) v
  | .count p n => gives (do let r ← argusCount a p; .ok r.1) n
  | .at p i v => seen (do let r ← argusArrayGet a p i; .ok r.1) v
  | .key p k v => seen (do let r ← argusMapGet a p k; .ok r.1) v
  | .items p vs =>
    match (do let r ← argusArrayIt a p; readAll (vs.length + 1) r.1) with
    | .ok ws => allSeen ws vs
    | .ub _ => false
  | .entries p ks vs =>
    match (do let r ← argusMapIt a p; readEntries (vs.length + 1) r.1) with
    | .ok es => es.map (·.1) == ks && allSeen (es.map (·.2)) vs
    | .ub _ => false
  | .command b => hasCommand a == b
  | .exec id => gives (do let r ← argusExec world a; .ok (r.1, r.2.1)) (0, some id)
  | .noExec => match argusExec world a with | .ok r => r.1 != 0 | .ub _ => false

/-- `argus_parse` returns `ARGUS_SUCCESS`, and then the test's expectations are met; `argus_free` works. -/
def accepts (a : Argus) (args : List Str) (ws : List Want) (env : Env := fun _ => none) : Bool :=
  match argusParse world env a args with
  | .ok (.returned st, a1) => st == Err.success && ws.all (Want.holds a1) && (argusFree a1).isOk
  | _ => false

/-- `argus_parse` returns another status; `argus_free` works. -/
def refuses (a : Argus) (args : List Str) (ws : List Want := []) : Bool :=
  match argusParse world (fun _ => none) a args with
  | .ok (.returned st, a1) => st != Err.success && ws.all (Want.holds a1) && (argusFree a1).isOk
  | _ => false

/-- `argus_parse` ends the process. -/
def exits (a : Argus) (args : List Str) : Bool :=
  match argusParse world (fun _ => none) a args with
  | .ok (.exited, _) => true
  | _ => false

/-- `argus_init(options, "test", "1.0.0")`, with the tables of the subcommands. -/
def init (tables : List (List Opt)) : Argus := argusInit tables c!"test" (some c!"1.0.0")

end Argus.Tests
