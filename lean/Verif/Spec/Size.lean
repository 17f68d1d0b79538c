import Verif.Spec.Final

/-!
# Specification: the size of what is given and of what is kept

Command lines and the environment are limited by the operating system. What a program keeps of them should not be
larger than they are.
-/

set_option autoImplicit false

namespace Argus

/-- The bytes of a command line as the operating system counts them, with the byte that ends each argument. -/
def lineBytes (args : List Str) : Nat := (args.map (fun x => x.length + 1)).sum

/-- The bytes of the texts a cell refers to, with the ending byte. -/
def Word.textSize : Word → Nat
  | .ptr s => s.length + 1
  | _ => 0

/-- The bytes of all texts an option refers to: its value, or the elements, keys and values of its collection. -/
def Opt.textSize (o : Opt) : Nat :=
  match o.value with
  | .word w => w.textSize
  | .arr cells => (cells.map Word.textSize).sum
  | .map cells => (cells.map (fun c => c.1.length + 1 + c.2.textSize)).sum
  | .dangling => 0

/-- The entries an option has room for; at least the eight that a first allocation provides, and twice those it has. -/
def Opt.room (o : Opt) : Nat := max (max o.valueCapacity 8) (2 * o.valueCount)

/-- A quantity of the options `ps`, all together. -/
def Argus.total (m : Opt → Nat) (a : Argus) (ps : List Ptr) : Nat :=
  (ps.map (fun p => match a.getOpt p with | .ok o => m o | .ub _ => 0)).sum

/-- The bytes of the variable the option `p` reads, with the ending byte; 0 if it reads none or the variable is not
    there. -/
def Argus.varBytes (env : Env) (a : Argus) (p : Ptr) : Nat :=
  match a.getOpt p with
  | .ok o => ((envVarName a.envPrefix o).bind env).elim 0 (fun v => v.length + 1)
  | .ub _ => 0

/-- The bytes the environment has for the options `ps`: the variable of each, as often as the command of the option
    occurs among the commands in use (once, unless a command contains itself). -/
def Argus.envBytes (env : Env) (a : Argus) (args : List Str) (ps : List Ptr) : Nat :=
  (ps.map (fun p => (a.tablesUsed args).count p.tbl * a.varBytes env p)).sum

/-- An option of the program that is no subcommand and whose handler is one of the library's. -/
def Argus.BuiltInAt (a : Argus) (p : Ptr) : Prop :=
  ∃ o, a.getOpt p = .ok o ∧ o.type ≠ .subcommand ∧ ∀ id, o.handler ≠ some (.custom id)

/-- It is not an int array either. -/
def Argus.NoRangesAt (a : Argus) (p : Ptr) : Prop :=
  ∃ o, a.getOpt p = .ok o ∧ o.handler ≠ some .arrayInt

end Argus
