import Verif.Lemmas.Relax
import Verif.Props.Outcome

/-!
# C79: constraints only restrict
-/

set_option autoImplicit false

namespace Argus

theorem helpExits_relax {T T' : List (List Opt)} (h : RelaxedTables T T') (hx : HelpExits T) : HelpExits T' := by
  intro p o' ho' hh
  obtain ⟨o, h1, h2⟩ := relaxedTables_back h ho'
  rw [h2.flags _ (by decide) (by decide)]
  exact hx p o h1 (h2.handler ▸ hh)

theorem allNamed_relax {T T' : List (List Opt)} (h : RelaxedTables T T') (hn : ∀ os ∈ T, AllNamed os) :
    ∀ os ∈ T', AllNamed os := by
  intro os' hos' o' ho' ht
  obtain ⟨k, hk⟩ := List.mem_iff_getElem?.1 hos'
  obtain ⟨i, hi⟩ := List.mem_iff_getElem?.1 ho'
  obtain ⟨o, h1, h2⟩ := relaxedTables_back h (p := ⟨k, i⟩) (o' := o') (by simp [placeAt, hk, hi])
  obtain ⟨os, h3, h4⟩ := Option.bind_eq_some_iff.1 h1
  rw [h2.name]
  exact hn os (List.mem_of_getElem? h3) o (List.mem_of_getElem? h4) (h2.type ▸ ht)

/-- **C79** Leaving out constraints does no harm: whatever command line and environment the program accepts is also
    accepted by the program with fewer validators, `REQUIRE` and `CONFLICT` entries, required positionals and
    exclusive groups. The same commands are selected, and every option holds the same. -/
theorem C79_fewer_constraints (W : World) (env : Env) (a a' : Argus) (args : List Str) (hw : MindsValues W)
    (hx : HelpExits a.tables) (hn : ∀ os ∈ a.tables, AllNamed os) (ht : RelaxedTables a.tables a'.tables)
    (hrest : { a' with tables := a.tables } = a) (b : Argus)
    (h : argusParse W env a args = .ok (.returned Err.success, b)) :
    ∃ b', argusParse W env a' args = .ok (.returned Err.success, b') ∧ RelaxedTables b.tables b'.tables ∧
      b'.stack = b.stack := by
  have h1 := (C75_success_iff W env a args _ _ hx hn).1 ⟨b, h, rfl, rfl⟩
  obtain ⟨h2, h3⟩ := accepted_relax hw ht hrest h1
  obtain ⟨b', h4, h5, h6⟩ := (C75_success_iff W env a' args _ _ (helpExits_relax ht hx) (allNamed_relax ht hn)).2 h2
  exact ⟨b', h4, by rw [h5]; exact h3, h6⟩

/-- **C79** And constraints do nothing else: let the program with fewer constraints accept a command line, where no
    validator of texts was left out, and let `T` be the resulting values with the full declarations. If everything
    declared on the command path holds of `T`, the full program accepts the command line and ends with `T`. -/
theorem C79_nothing_else (W : World) (env : Env) (a a' : Argus) (args : List Str) (hw : MindsValues W)
    (hx : HelpExits a.tables) (hn : ∀ os ∈ a.tables, AllNamed os) (ht : RelaxedTables a.tables a'.tables)
    (hk : ∀ p o o', placeAt a.tables p = some o → placeAt a'.tables p = some o' → KeepsTextChecks o o')
    (hrest : { a' with tables := a.tables } = a) (b' : Argus)
    (h : argusParse W env a' args = .ok (.returned Err.success, b')) (T : List (List Opt))
    (hT : RelaxedTables T b'.tables) (hm : T.map (·.map Opt.meta) = a.tables.map (·.map Opt.meta))
    (hl : ∀ k ∈ pathTables a b'.stack, ∀ os, T[k]? = some os → LevelOk W os) :
    ∃ b, argusParse W env a args = .ok (.returned Err.success, b) ∧ b.tables = T ∧ b.stack = b'.stack := by
  have h1 := (C75_success_iff W env a' args _ _ (helpExits_relax ht hx) (allNamed_relax ht hn)).1 ⟨b', h, rfl, rfl⟩
  have hlen : (wearTables b'.tables a.tables).map List.length = T.map List.length := by
    rw [wearTables_lengths (by rw [h1.sizes, ht.1])]
    have := congrArg (List.map List.length) hm
    simpa [Function.comp_def] using this.symm
  have e : wearTables b'.tables a.tables = T := by
    refine tables_sameEntries hlen (fun p o ho => ?_)
    obtain ⟨o', h2, h3⟩ := hT.2 p o ho
    obtain ⟨os, h4, h5⟩ := Option.bind_eq_some_iff.1 ho
    have h6 : (T.map (·.map Opt.meta))[p.tbl]? = some (os.map Opt.meta) := by simp [h4]
    rw [hm, List.getElem?_map] at h6
    cases h7 : a.tables[p.tbl]? with
    | none => rw [h7] at h6; cases h6
    | some ds =>
      rw [h7] at h6
      simp only [Option.map_some, Option.some.injEq] at h6
      have h8 : (ds.map Opt.meta)[p.idx]? = some o.meta := by rw [h6]; simp [h5]
      rw [List.getElem?_map] at h8
      cases h9 : ds[p.idx]? with
      | none => rw [h9] at h8; cases h8
      | some d =>
        rw [h9] at h8
        simp only [Option.map_some, Option.some.injEq] at h8
        rw [wearTables_place h2 (show placeAt a.tables p = some d by simp [placeAt, h7, h9])]
        rw [Option.some.injEq, ← h3.wear_back]
        have f1 : d.help = o.help := by have := congrArg Opt.help h8; exact this
        have f2 : d.hint = o.hint := by have := congrArg Opt.hint h8; exact this
        have f3 : d.validators = o.validators := by have := congrArg Opt.validators h8; exact this
        have f4 : d.conflict = o.conflict := by have := congrArg Opt.conflict h8; exact this
        have f5 : d.require = o.require := by have := congrArg Opt.require h8; exact this
        have f6 : d.flags = o.flags := by have := congrArg Opt.flags h8; exact this
        unfold Opt.wear
        rw [f1, f2, f3, f4, f5, f6]
  obtain ⟨h2, _⟩ := accepted_back hw ht hk hrest h1 (by rw [e]; exact hl)
  rw [e] at h2
  exact (C75_success_iff W env a args _ _ hx hn).2 h2

theorem relaxed_unconstrained (o : Opt) : Relaxed o o.unconstrained :=
  ⟨rfl, fun _ hv => (nomatch hv), fun _ hv => (nomatch hv), fun _ hv => (nomatch hv), id, id, fun _ _ _ => rfl⟩

theorem relaxedTables_unconstrained (T : List (List Opt)) : RelaxedTables T (T.map (·.map Opt.unconstrained)) := by
  refine ⟨by simp [Function.comp_def], fun p o ho => ?_⟩
  obtain ⟨os, h1, h2⟩ := Option.bind_eq_some_iff.1 ho
  exact ⟨o.unconstrained, by simp [placeAt, h1, h2], relaxed_unconstrained o⟩

/-- **C79** In particular all validators, `REQUIRE` and `CONFLICT` entries may go. -/
theorem C79_unconstrained (W : World) (env : Env) (a : Argus) (args : List Str) (hw : MindsValues W)
    (hx : HelpExits a.tables) (hn : ∀ os ∈ a.tables, AllNamed os) (b : Argus)
    (h : argusParse W env a args = .ok (.returned Err.success, b)) :
    ∃ b', argusParse W env { a with tables := a.tables.map (·.map Opt.unconstrained) } args =
        .ok (.returned Err.success, b') ∧
      (∀ p o, placeAt b.tables p = some o → ∃ o', placeAt b'.tables p = some o' ∧ o'.value = o.value ∧
        o'.isSet = o.isSet ∧ o'.valueCount = o.valueCount) ∧ b'.stack = b.stack := by
  obtain ⟨b', h1, h2, h3⟩ := C79_fewer_constraints W env a { a with tables := a.tables.map (·.map Opt.unconstrained) }
    args hw hx hn (relaxedTables_unconstrained _) rfl b h
  refine ⟨b', h1, fun p o ho => ?_, h3⟩
  obtain ⟨o', h4, h5⟩ := h2.2 p o ho
  exact ⟨o', h4, h5.value, h5.isSet, h5.valueCount⟩

theorem sample_mindsValues : MindsValues Sample.world := by
  refine ⟨fun id o o' x h => ?_, fun id o o' h => rfl⟩
  have h1 : o'.isAllocated = o.isAllocated := h.field (·.isAllocated) (fun _ => rfl)
  have h2 : o'.valueCapacity = o.valueCapacity := h.field (·.valueCapacity) (fun _ => rfl)
  show (⟨Err.success, o'.value, o'.isAllocated, o'.valueCount, o'.valueCapacity, none⟩ : CustomResult) = _
  rw [h.value, h1, h.valueCount, h2]
  rfl

/-- The sample program accepts `--port 80`; it refuses `--port 0`, which it accepts without its constraints. -/
example : HelpExits Sample.prog.tables ∧ (∀ os ∈ Sample.prog.tables, AllNamed os) ∧
    (argusParse Sample.world Sample.noEnv Sample.prog [c!"--port", c!"80"]).toOption.map (·.1) =
      some (.returned Err.success) ∧
    (argusParse Sample.world Sample.noEnv Sample.prog [c!"--port", c!"0"]).toOption.map (·.1) ≠
      some (.returned Err.success) ∧
    (argusParse Sample.world Sample.noEnv
      { Sample.prog with tables := Sample.prog.tables.map (·.map Opt.unconstrained) } [c!"--port", c!"0"]).toOption.map
        (·.1) = some (.returned Err.success) :=
  ⟨sample_helpExits, sample_allNamed, by decide +kernel, by decide +kernel, by decide +kernel⟩

/-- The validators of the sample program look at values, so all of them may go for `C79_nothing_else`. -/
example : ∀ p o o', placeAt Sample.prog.tables p = some o →
    placeAt (Sample.prog.tables.map (·.map Opt.unconstrained)) p = some o' → KeepsTextChecks o o' := by
  have key : ∀ os ∈ Sample.prog.tables, ∀ o ∈ os, ∀ v ∈ o.validators.getD [], v.order ≠ .pre := by decide +kernel
  intro p o o' ho _ v hv hp
  obtain ⟨os, h1, h2⟩ := Option.bind_eq_some_iff.1 ho
  exact absurd hp (key os (List.mem_of_getElem? h1) o (List.mem_of_getElem? h2) v hv)

end Argus
