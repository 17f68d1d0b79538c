import Verif.Model.DescMem
import Verif.Spec.Describe

/-! # Descriptions that lack memory -/

set_option autoImplicit false

namespace Argus

/-- Nothing is live at an address not yet given out. -/
def DHeap.Sound (h : DHeap) : Prop := ∀ x, h.next ≤ x → h.live x = none

/-- An allocator that refuses no call. -/
def DAlloc.Full (A : DAlloc) : Prop := ∀ k, A k ≠ none

/-- The texts of a constraint are C strings, and all choices together fit into memory. -/
def VKind.Plain (F : Fmt) : VKind → Prop
  | .choiceStr cs => (∀ s ∈ cs, 0 ∉ s) ∧ (cs.map List.length).sum + cs.length < 2 ^ 62
  | .choiceInt cs => cs.length < 2 ^ 56
  | .choiceFloat cs => (∀ x ∈ cs, 0 ∉ F.g2 x) ∧ cs.length < 2 ^ 56
  | .regex p h => 0 ∉ p.getD [] ∧ 0 ∉ h.getD [] ∧ (h.getD []).length < 2 ^ 62
  | .custom id => 0 ∉ (F.custom id).getD [] ∧ ((F.custom id).getD []).length < 2 ^ 62
  | _ => True

/-- The texts of an option are C strings that fit into memory. -/
structure Opt.Plain (F : Fmt) (envPrefix : Option Str) (o : Opt) : Prop where
  help : 0 ∉ o.help.getD []
  hint : 0 ∉ o.hint.getD []
  validators : ∀ v ∈ o.validators.getD [], v.kind.Plain F
  default : ∀ s, o.defaultValue.asString = .ok (some s) → 0 ∉ s
  floats : ∀ x, 0 ∉ F.f2 x
  env : 0 ∉ envPrefix.getD [] ∧ 0 ∉ o.envName.getD [] ∧ 0 ∉ o.name.getD [] ∧ 0 ∉ o.lname.getD []
  room : (o.help.getD []).length + (o.hint.getD []).length + 256 * (o.validators.getD []).length < 2 ^ 62

/-- A default that is shown can be read as a value of the type of the option. -/
def Opt.DefaultReads (o : Opt) : Prop :=
  o.haveDefault = true →
    (o.valueType = .int → ∃ n, o.defaultValue.asInt = .ok n) ∧ (o.valueType = .string → ∃ s, o.defaultValue.asString = .ok s) ∧
    (o.valueType = .float → ∃ x, o.defaultValue.asFloat = .ok x) ∧ (o.valueType = .bool → ∃ b, o.defaultValue.asBool = .ok b)

/-- The table `os` can be shown: its texts are C strings that fit into memory, defaults have the types of their options, and
    positionals, subcommands and the commands on the stack have names. -/
structure Argus.Shows (F : Fmt) (a : Argus) (os : List Opt) : Prop where
  plain : ∀ o ∈ os, o.Plain F a.envPrefix
  defaults : ∀ o ∈ os, o.DefaultReads
  named : ∀ o ∈ os, o.type = .positional ∨ o.type = .subcommand → o.name ≠ none
  stack : ∀ p ∈ a.stack, ∃ o, a.getOpt p = .ok o ∧ o.name ≠ none

/-- What may be left of a description: some of the notes, in order; the default or nothing; the variable, or not the variable and
    perhaps not the parenthesis before it; the marks or nothing. Each of these is whole or absent. -/
def Opt.Left (F : Fmt) (o : Opt) (var : Option Str) (dflt s : Str) : Prop :=
  ∃ ns d v m : Str, (∃ l : List Str, l.Sublist ((o.validators.getD []).map fun v => v.kind.note F.g2) ∧ ns = l.flatten) ∧
    (d = [] ∨ d = dflt) ∧
    (v = withVariable (o.help.getD [] ++ ns ++ d) var ∨
      (var ≠ none ∧ (v = o.help.getD [] ++ ns ++ d ∨ v ++ c!")" = o.help.getD [] ++ ns ++ d))) ∧
    (m = [] ∨ m = marks o.flags) ∧ s = v ++ m

end Argus
