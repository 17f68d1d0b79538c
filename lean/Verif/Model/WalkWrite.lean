import Verif.Model.Walk

/-!
# Loops that change the table they walk over

The loops of Model/Walk leave the table as it is. `free_options` and `load_env` write to its entries and then read the next one,
so that the end mark is looked for in what is in memory by then.
-/

set_option autoImplicit false

namespace Argus

/-- source/api/argus_free.c:15-19 `free_options`, from `options + i` on; the result is the memory afterwards. -/
def freeOptionsAt : (fuel : Nat) → (i : Int) → List (Option Opt) → Out (Option (List (Option Opt)))
  | 0, _, _ => .ok none
  | fuel + 1, i, memory => do
    match ← tableEntry memory i with
    | none => .ok (some memory)
    | some o => do
      let o1 ← freeOptionValue o
      freeOptionsAt fuel (i + 1) (memory.set i.toNat (some o1))

/-- `options[i]` in table `k` of the context, with the end mark after its last entry. -/
def contextEntry (a : Argus) (k : Nat) (i : Int) : Out (Option Opt) := do
  let os ← a.table (some k)
  tableEntry (os.map some ++ [none]) i

/-- source/core/parsing/load_env_vars.c:70-100, the loop of `load_env` from `i` on, with the end of the table looked for before
    every round. -/
def loadEnvAt (W : World) (env : Env) (k : Nat) : (fuel : Nat) → (i : Int) → Argus → Out (Option (Int × Argus))
  | 0, _, _ => .ok none
  | fuel + 1, i, a => do
    match ← contextEntry a k i with
    | none => .ok (some (Err.success, a))
    | some _ => do
      let r ← loadEnvStep W env a ⟨k, i.toNat⟩
      if r.1 ≠ Err.success then .ok (some r)
      else do
        let i1 ← intInc i
        loadEnvAt W env k fuel i1 r.2

end Argus
