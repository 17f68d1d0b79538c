import Verif.Model.Bytes

/-! # Text broken into lines -/

set_option autoImplicit false

namespace Argus

/-- Lines, each with what the text has between it and the next one, and a last line. -/
structure Broken where
  lines : List (Str × Str)
  last : Str

/-- The text that was broken. -/
def Broken.text (b : Broken) : Str := b.lines.flatMap (fun p => p.1 ++ p.2) ++ b.last

/-- What is printed: the lines, each but the first after `pad`; no padding after the last newline. -/
def printedLines (pad : Str) : List (Str × Str) → Str → Str
  | [], last => last
  | (l, _) :: ls, last => l ++ [10] ++ (if ls = [] ∧ last = [] then [] else pad) ++ printedLines pad ls last

/-- A permitted break for lines of at most `w` bytes: a line without newline characters, and after it one space, one
    newline, or nothing if the line is a full one that could not be broken at a space. -/
def BreakOk (w : Nat) (p : Str × Str) : Prop :=
  10 ∉ p.1 ∧ p.1.length ≤ w ∧
  (p.2 = [10] ∨ p.2 = [32] ∨ (p.2 = [] ∧ p.1.length = w ∧ 32 ∉ p.1.drop 1))

/-- The lines of a printed text. -/
def linesOf : Str → List Str
  | [] => [[]]
  | c :: s =>
    if c = 10 then [] :: linesOf s
    else
      match linesOf s with
      | [] => [[c]]
      | l :: ls => (c :: l) :: ls

end Argus
