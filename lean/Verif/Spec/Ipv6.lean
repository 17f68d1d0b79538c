import Verif.Spec.Patterns

/-!
# IPv6 addresses

The text forms of RFC 4291, section 2.2, and the zones of RFC 4007, section 11, independently of the pattern.
-/

set_option autoImplicit false

namespace Argus

/-- An IPv6 address without a zone: groups, or groups and a dotted IPv4 address for the last two of them, in both cases
    possibly with `::` in place of at least one group. -/
def IsIpv6Text (m : Str) : Prop :=
  IsIpv6Groups m ∨
  (∃ gs q, m = joined c!":" (gs ++ [q]) ∧ gs.length = 6 ∧ (∀ g ∈ gs, IsGroup g) ∧ IsIpv4 q) ∨
  (∃ left right q, m = joined c!":" left ++ c!"::" ++ joined c!":" (right ++ [q]) ∧ left.length + right.length ≤ 5 ∧
    (∀ g ∈ left ++ right, IsGroup g) ∧ IsIpv4 q)

/-- An IPv6 address, possibly with a zone. -/
def IsIpv6Address (m : Str) : Prop :=
  IsIpv6Text m ∨ ∃ a zone, m = a ++ c!"%" ++ zone ∧ IsIpv6Text a ∧ zone ≠ []

end Argus
