import Verif.Model.Stream

/-! # Use of the stream functions -/

set_option autoImplicit false

namespace Argus

/-- What a program does with its streams. -/
inductive StreamOp where
  | redirect (fd : Int) (c : RedirectOs)
  /-- print `s`; stdio writes `k` bytes of what it holds -/
  | print (fd : Nat) (s : Str) (k : Nat)
  | flush (fd : Nat)
  | read (fd : Int) (os : ReadOs)
  | restore (fd : Int) (dup2 : Bool)
  | cleanup

/-- One step: the process and, for a read, the block returned. `none`: the call never returns. -/
def StreamOp.step (cap : Nat) (p : Proc) : StreamOp → Out (Option (Option Mem × Proc))
  | .redirect fd c => .ok (some (none, (streamRedirect c p fd).2))
  | .print fd s k => .ok ((p.print cap fd s k).map fun p => (none, p))
  | .flush fd => .ok ((p.flush cap fd).map fun p => (none, p))
  | .read fd os => streamRead cap os p fd
  | .restore fd b => .ok ((streamRestore cap b p fd).map fun p => (none, p))
  | .cleanup => .ok ((streamCleanupAll cap p).map fun p => (none, p))

/-- A sequence of steps: the blocks returned and the process at the end. -/
def StreamOp.run (cap : Nat) : Proc → List StreamOp → Out (Option (List (Option Mem) × Proc))
  | p, [] => .ok (some ([], p))
  | p, o :: os => do
    match ← o.step cap p with
    | none => .ok none
    | some (m, p1) =>
      match ← StreamOp.run cap p1 os with
      | none => .ok none
      | some (ms, p2) => .ok (some (m :: ms, p2))

/-- The system never lets the `dup2` of `stream_restore` fail. -/
def StreamOp.restores : StreamOp → Prop
  | .restore _ b => b = true
  | _ => True

/-- A process before any redirection, with the three standard descriptors open. -/
structure Proc.Fresh (p : Proc) : Prop where
  std : ∀ fd < 3, p.fds fd ≠ none
  plain : ∀ n f, p.fds n = some f → ∃ id, f = .other id
  idle : ∀ fd, (p.slots fd).active = false

/-- The string in a returned block: everything before the terminator at position `n`. -/
def holds (m : Option Mem) (s : Str) : Prop :=
  match m with
  | none => s = []
  | some m => s ≠ [] ∧ (s ++ [0]) <+: m

end Argus
