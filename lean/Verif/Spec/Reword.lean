import Verif.Spec.Outcome
import Verif.Model.Messages

/-!
# Programs that differ in what they show only

`Reworded o o'`: the entry `o'` is declared like `o`, apart from the help text, the hint and the flags that concern the
display.
-/

set_option autoImplicit false

namespace Argus

/-- FLAG_HIDDEN, FLAG_ADVANCED, FLAG_DEPRECATED and FLAG_EXPERIMENTAL. -/
def Flag.isForDisplay (f : Flag) : Prop := f = .hidden ∨ f = .advanced ∨ f = .deprecated ∨ f = .experimental

/-- `o'` is `o` with another help text, another hint and other flags for the display. -/
structure Reworded (o o' : Opt) : Prop where
  same : { o' with help := o.help, hint := o.hint, flags := o.flags } = o
  flags : ∀ f : Flag, ¬ f.isForDisplay → o'.flags.has f = o.flags.has f

/-- The programs `a` and `b` differ in what they show only: in help texts, hints and display flags of their entries,
    and in program name, version, description and configuration of the help. -/
structure ShownOtherwise (a b : Argus) : Prop where
  sizes : b.tables.map List.length = a.tables.map List.length
  entries : ∀ p o, placeAt a.tables p = some o → ∃ o', placeAt b.tables p = some o' ∧ Reworded o o'
  rest : { b with tables := a.tables, programName := a.programName, version := a.version, description := a.description,
                  helper := a.helper } = a

/-- The user's handlers and validators do not look at what is for display only. -/
structure MindsNoTexts (W : World) : Prop where
  handler : ∀ id o o' x, Reworded o o' → W.handler id o' x = W.handler id o x
  validator : ∀ id o o', Reworded o o' → W.postValidator id o' = W.postValidator id o

/-- The callbacks of the user do not word their messages by what is for display only. -/
structure WordsNoTexts (M : Wording) : Prop where
  handler : ∀ id o o' x, Reworded o o' → M.handler id o' x = M.handler id o x
  validator : ∀ id o o', Reworded o o' → M.postValidator id o' = M.postValidator id o

/-- The help texts of subcommands are the same in both programs: an ambiguous abbreviation quotes them. -/
def SameCommandTexts (a b : Argus) : Prop :=
  ∀ p o o', placeAt a.tables p = some o → placeAt b.tables p = some o' → o.type = .subcommand → o'.help = o.help

end Argus
