import Verif.Lemmas.Portable
import Verif.Props.Arrays
import Verif.Props.Maps
import Verif.Spec.Outcome

/-!
# C82: the C library's `qsort` does not decide what the options hold
-/

set_option autoImplicit false

namespace Argus

theorem allSettled_of {a : Argus} (h : ∀ os ∈ a.tables, ∀ o ∈ os, o.Unsorted ∧ o.OrderSettled) : AllSettled a := by
  intro p o ho
  obtain ⟨os, h1, h2⟩ := getOpt_eq_ok.1 ho
  obtain ⟨h3, h4⟩ := h os (List.mem_of_getElem? h1) o (List.mem_of_getElem? h2)
  refine ⟨h4, h3.type, fun hd e => ?_⟩
  cases hc : hd.isCollection with
  | true =>
    have hv := h3.empty hd e hc
    have ea : ∀ p, ArrOf p o.value := fun p cells hcs => by rw [hv] at hcs; cases hcs
    have em : ∀ p, MapOf p o.value := fun p cells hcs => by rw [hv] at hcs; cases hcs
    unfold ValueKept
    split
    · exact ea _
    · exact ea _
    · exact ea _
    · exact em _
    · exact em _
    · exact em _
    · exact em _
    · trivial
  | false =>
    unfold ValueKept
    cases hd <;> first | trivial | cases hc

/-- **C82** (full statement: for every program). On two platforms that differ in nothing but how `qsort` works, every
    command line and environment has the same outcome, be it success, an error or undefined behaviour: the same status, the
    same messages, the same values in the same order. Missing: options whose order is left open by what is compared, see
    `Opt.OrderSettled` and the three theorems below. -/
theorem C82_same_everywhere_partial (W V : World) (env : Env) (a : Argus) (args : List Str) (hw : OtherSort W V)
    (hs : ∀ os ∈ a.tables, ∀ o ∈ os, o.Unsorted ∧ o.OrderSettled) :
    argusParse V env a args = argusParse W env a args :=
  argusParse_same hw (allSettled_of hs) args

/-- A `qsort` that conforms as well: it begins at the other end. -/
def Sample.otherSort : World :=
  { Sample.world with
    qsort := fun cmp l => sortBy cmp l.reverse
    qsort_perm := fun cmp l => (sortBy_perm cmp l.reverse).trans (List.reverse_perm l)
    qsort_sorted := fun cmp l hc => sortBy_sorted cmp l.reverse l hc (fun _ h => List.mem_reverse.1 h)
    qsort_map := fun f cmp l => by
      show (sortBy (fun a b => cmp (f a) (f b)) l.reverse).map f = sortBy cmp (l.map f).reverse
      rw [sortBy_map, List.map_reverse] }

theorem sample_otherSort : OtherSort Sample.world Sample.otherSort := ⟨rfl, rfl, rfl, rfl, rfl, rfl, rfl, rfl⟩

/-- A program with sorted arrays and maps. -/
def Sample.sorters (o : Opt) : Argus :=
  { Sample.prog with tables := [[helpOption,
      { optArrayString 116 (some c!"tags") with flags := Flags.ofList [.sorted] },
      { optArrayInt 105 (some c!"ints") with flags := Flags.ofList [.sorted, .unique] },
      { optMapInt 107 (some c!"keys") with flags := Flags.ofList [.sortedKey] },
      { optMapInt 118 (some c!"values") with flags := Flags.ofList [.sortedValue, .uniqueValue] }, o]] }

/-- The value of the last option of that program on two platforms. -/
def Sample.bothSorts (o : Opt) (args : List Str) : List (Option Val) :=
  [Sample.world, Sample.otherSort].map (fun W =>
    match argusParse W Sample.noEnv (Sample.sorters o) args with
    | .ok (.returned 0, a) => (placeAt a.tables ⟨0, 5⟩).map (·.value)
    | _ => none)

/-- A case of C82: four sorted options, whose declarations settle the order, and what they hold. -/
example : (∀ os ∈ (Sample.sorters (optMapString 109 (some c!"map"))).tables, ∀ o ∈ os, o.Unsorted ∧ o.OrderSettled) ∧
    ∃ a', argusParse Sample.world Sample.noEnv (Sample.sorters (optMapString 109 (some c!"map")))
        [c!"--tags=b,a,b", c!"--ints=3,1:2,3", c!"--keys=b=1,a=2,a=1", c!"--values=x=2,y=1,z=2"] =
        .ok (.returned Err.success, a') ∧
      (placeAt a'.tables ⟨0, 1⟩).map (·.value) = some (.arr [.ptr c!"a", .ptr c!"b", .ptr c!"b"]) ∧
      (placeAt a'.tables ⟨0, 2⟩).map (·.value) = some (.arr [.low 1, .low 2, .low 3]) ∧
      (placeAt a'.tables ⟨0, 3⟩).map (·.value) = some (.map [(c!"a", .ofInt64 1), (c!"b", .ofInt64 1)]) ∧
      (placeAt a'.tables ⟨0, 4⟩).map (·.value) = some (.map [(c!"y", .ofInt64 1), (c!"x", .ofInt64 2)]) := by
  refine ⟨?_, _, rfl, by decide +kernel, by decide +kernel, by decide +kernel, by decide +kernel⟩
  intro os hos o ho
  simp only [Sample.sorters, List.mem_singleton] at hos
  subst hos
  simp only [List.mem_cons, List.not_mem_nil, or_false] at ho
  rcases ho with rfl | rfl | rfl | rfl | rfl | rfl
  · exact ⟨⟨fun h e hc => by (cases e; cases hc), fun h e hc => by (cases e; cases hc)⟩, trivial⟩
  · exact ⟨⟨fun h e _ => by cases e; exact ⟨_, .arrayString⟩, fun h e _ => by cases e; rfl⟩, trivial⟩
  · exact ⟨⟨fun h e _ => by cases e; exact ⟨_, .arrayInt⟩, fun h e _ => by cases e; rfl⟩, trivial⟩
  · exact ⟨⟨fun h e _ => by cases e; exact ⟨_, .mapInt⟩, fun h e _ => by cases e; rfl⟩, .inl (by decide)⟩
  · exact ⟨⟨fun h e _ => by cases e; exact ⟨_, .mapInt⟩, fun h e _ => by cases e; rfl⟩, .inr (.inr (by decide))⟩
  · exact ⟨⟨fun h e _ => by cases e; exact ⟨_, .mapString⟩, fun h e _ => by cases e; rfl⟩, .inr (.inl (by decide))⟩

/-- **C82** fails for maps sorted by value: the order of entries with the same value is that of the platform. -/
theorem C82_equal_values :
    Sample.bothSorts { optMapInt 109 (some c!"map") with flags := Flags.ofList [.sortedValue] } [c!"--map=b=1,a=1"] =
      [some (.map [(c!"b", .ofInt64 1), (c!"a", .ofInt64 1)]), some (.map [(c!"a", .ofInt64 1), (c!"b", .ofInt64 1)])] := by
  decide +kernel

/-- **C82** fails for variadic ints beyond 32 bits: 1 and 4294967297 compare equal. With FLAG_UNIQUE the platform decides
    which of them is dropped. -/
theorem C82_large_ints :
    Sample.bothSorts { posManyInt c!"n" with flags := Flags.ofList [.sorted] } [c!"1", c!"4294967297"] =
      [some (.arr [.ofInt64 1, .ofInt64 4294967297]), some (.arr [.ofInt64 4294967297, .ofInt64 1])] ∧
    Sample.bothSorts { posManyInt c!"n" with flags := Flags.ofList [.sorted, .unique] } [c!"1", c!"4294967297"] =
      [some (.arr [.ofInt64 1]), some (.arr [.ofInt64 4294967297])] := by
  decide +kernel

/-- Two platforms that read NaN. -/
def Sample.nanSort : World :=
  { Sample.otherSort with
    strtof := Sample.nanFloat
    strtof_low := Sample.nanWorld.strtof_low }

/-- **C82** fails for doubles with a NaN among them: the platform decides whether 1 or 2 comes first. -/
theorem C82_nan : OtherSort Sample.nanWorld Sample.nanSort ∧
    (({ optArrayFloat 102 none with flags := Flags.ofList [.sorted] } : Opt).giveAll Sample.nanWorld
      [some c!"2,n,1"]).map (·.value) =
        some (.arr [.bits 0x4000000000000000#64, .bits 0x7FF8000000000000#64, .bits 0x3FF0000000000000#64]) ∧
    (({ optArrayFloat 102 none with flags := Flags.ofList [.sorted] } : Opt).giveAll Sample.nanSort
      [some c!"2,n,1"]).map (·.value) =
        some (.arr [.bits 0x3FF0000000000000#64, .bits 0x7FF8000000000000#64, .bits 0x4000000000000000#64]) :=
  ⟨⟨rfl, rfl, rfl, rfl, rfl, rfl, rfl, rfl⟩, by decide +kernel, by decide +kernel⟩

end Argus
