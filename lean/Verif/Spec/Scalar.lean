import Verif.Model.Parse

/-!
# Values of scalar options
-/

set_option autoImplicit false

namespace Argus

/-- The handlers that store one value per option. -/
def Handler.isScalar : Handler → Bool
  | .string | .int | .float | .bool => true
  | _ => false

/-- What an option with a scalar handler holds when its text is `v`: the string itself, the integer or
    the float it reads as, or a cell whose truth value is the meaning of the text. -/
def Holds (W : World) (h : Handler) (v : Str) (x : Val) : Prop :=
  match h with
  | .string => x = .word (.ptr v)
  | .int => x = .word (.bits (BitVec.ofInt 64 (strtoll v).1))
  | .float => x = .word (.bits (W.strtof v))
  | .bool => ∃ w b, x = .word w ∧ stringToBool v = some b ∧ w.asBool = .ok b
  | _ => False

/-- The texts that mean true, in any letter case. -/
def MeansTrue (v : Str) : Prop :=
  v.map toLower ∈ [c!"true", c!"yes", c!"1", c!"on", c!"y", c!"0x1", c!"0b1"]

/-- The texts that mean false, in any letter case. -/
def MeansFalse (v : Str) : Prop :=
  v.map toLower ∈ [c!"false", c!"no", c!"0", c!"off", c!"n", c!"0x0", c!"0b0"]

instance (v : Str) : Decidable (MeansTrue v) := by unfold MeansTrue; infer_instance
instance (v : Str) : Decidable (MeansFalse v) := by unfold MeansFalse; infer_instance

end Argus
