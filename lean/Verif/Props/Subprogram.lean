import Verif.Lemmas.Subprogram
import Verif.Props.FirstFault

/-! Property C97: a subcommand is a program of its own. -/

set_option autoImplicit false

namespace Argus

section
variable (W : World) (env : Env) (a : Argus) (pre post : List Str) (c : Str) (p : Ptr) (k : Nat)

/-- **C97** The arguments behind the name of a command mean what they mean to the program that has this command's options;
    they mean it whatever comes before. -/
theorem C97_reading (h : CallsCommand a pre c p k) :
    a.asks (pre ++ c :: post) = a.asks pre ++ .enter p :: (a.standAlone k).asks post :=
  h.asks post

/-- **C97** If the whole is accepted, then the command by itself accepts its arguments. It has the same values in all the
    tables inside, and it calls the same commands below. -/
theorem C97_inside (a' : Argus) (hx : HelpExits a.tables) (hn : ∀ os ∈ a.tables, AllNamed os) (h : CallsCommand a pre c p k)
    (hap : Apart a pre k post) (hs : argusParse W env a (pre ++ c :: post) = .ok (.returned Err.success, a')) :
    ∃ s, argusParse W env (a.standAlone k) post = .ok (.returned Err.success, s) ∧
      a'.stack = entered (a.asks pre) ++ p :: s.stack ∧ ∀ j ∈ a.inside k post, a'.tables[j]? = s.tables[j]? := by
  have hacc := (argusParse_accepted hx hn).1 ⟨a', hs, rfl, rfl⟩
  obtain ⟨s, h1, h2, h3⟩ := (argusParse_accepted (a := a.standAlone k) hx hn).2 (h.accepted_inside hap hacc)
  refine ⟨s, h1, ?_, fun j hj => ?_⟩
  · rw [hacc.selected, h.fresh, List.nil_append, h.entered, h3]
  · rw [h2, pick_get (sizes_length hacc.sizes), if_pos hj]

/-- **C97** The arguments of a command can be exchanged for others that the command by itself accepts. The whole is accepted
    again; outside it has the same values as before, inside those of the command by itself. -/
theorem C97_exchange (post' : List Str) (a1 s : Argus) (hx : HelpExits a.tables) (hn : ∀ os ∈ a.tables, AllNamed os)
    (h : CallsCommand a pre c p k) (hap : Apart a pre k post) (hap' : Apart a pre k post')
    (h1 : argusParse W env a (pre ++ c :: post) = .ok (.returned Err.success, a1))
    (h2 : argusParse W env (a.standAlone k) post' = .ok (.returned Err.success, s))
    (hd : (entered (a.asks pre)).length + 1 + s.stack.length ≤ 8) :
    ∃ a2, argusParse W env a (pre ++ c :: post') = .ok (.returned Err.success, a2) ∧
      a2.stack = entered (a.asks pre) ++ p :: s.stack ∧
      ∀ j, a2.tables[j]? = if j ∈ a.outside pre then a1.tables[j]? else s.tables[j]? := by
  have hacc1 := (argusParse_accepted hx hn).1 ⟨a1, h1, rfl, rfl⟩
  have hacc2 := (argusParse_accepted (a := a.standAlone k) hx hn).1 ⟨s, h2, rfl, rfl⟩
  obtain ⟨a2, g1, g2, g3⟩ := (argusParse_accepted hx hn).2 (h.accepted_both hap hacc1 hap' hacc2 hd)
  refine ⟨a2, g1, g3, fun j => ?_⟩
  rw [g2, pick_get ((sizes_length hacc1.sizes).trans (sizes_length (A := s.tables) (C := a.tables) hacc2.sizes).symm)]

/-- **C97** If the command can be called at all with what comes before it, then the whole ends as the command by itself
    ends with these arguments: with the same status, or by leaving the program. -/
theorem C97_status (post' : List Str) (a1 a2 s : Argus) (e e' : ParseEnd) (hx : HelpExits a.tables)
    (hn : ∀ os ∈ a.tables, AllNamed os) (h : CallsCommand a pre c p k) (hap : Apart a pre k post) (hap' : Apart a pre k post')
    (h1 : argusParse W env a (pre ++ c :: post) = .ok (.returned Err.success, a1))
    (h2 : argusParse W env (a.standAlone k) post' = .ok (e, s)) (h3 : argusParse W env a (pre ++ c :: post') = .ok (e', a2))
    (hd : (entered (a.asks pre)).length + 1 + (entered ((a.standAlone k).asks post')).length ≤ 8) : e' = e := by
  by_cases he : e = .returned Err.success
  · subst he
    have hacc2 := (argusParse_accepted (a := a.standAlone k) hx hn).1 ⟨s, h2, rfl, rfl⟩
    have hst : s.stack = entered ((a.standAlone k).asks post') := by rw [hacc2.selected]; rfl
    obtain ⟨a3, g, _⟩ := C97_exchange W env a pre post c p k post' a1 s hx hn h hap hap' h1 h2 (by rw [hst]; exact hd)
    rw [h3] at g
    exact congrArg Prod.fst (Out.ok.inj g)
  · have hacc1 := (argusParse_accepted hx hn).1 ⟨a1, h1, rfl, rfl⟩
    have hf := argusParse_fault (a := a.standAlone k) hx hn h2 he
    exact ((C95_first_fault W env a a2 (pre ++ c :: post') e' hx hn h3 e).1 (h.fault_inside hap hacc1 hap' hd hf)).1.symm

end

/-- `prog -v add …`: the command `add`, with the options of table 1, is called after `-v`. -/
theorem sample_callsAdd : CallsCommand Sample.prog [c!"-v"] c!"add" ⟨0, 8⟩ 1 := by
  have hb : Sample.prog.asks [c!"-v"] = [.give ⟨0, 1⟩ none] := by decide +kernel
  refine ⟨rfl, ?_, by decide +kernel, by decide +kernel⟩
  rw [hb]
  simp

/-- After `admin -u me` its command `list` is called, which has the options of table 1 as well. -/
theorem sample_callsList : CallsCommand Sample.prog [c!"admin", c!"-u", c!"me"] c!"list" ⟨2, 2⟩ 1 := by
  have hb : Sample.prog.asks [c!"admin", c!"-u", c!"me"] = [.enter ⟨0, 9⟩, .give ⟨2, 1⟩ (some c!"me")] := by decide +kernel
  refine ⟨rfl, ?_, by decide +kernel, by decide +kernel⟩
  rw [hb]
  simp

/-- `prog -v add 5 x y` gives the options of `add` what `add 5 x y` would give them. -/
example : ∃ a' s, argusParse Sample.world Sample.noEnv Sample.prog [c!"-v", c!"add", c!"5", c!"x", c!"y"] =
      .ok (.returned Err.success, a') ∧
    argusParse Sample.world Sample.noEnv (Sample.prog.standAlone 1) [c!"5", c!"x", c!"y"] = .ok (.returned Err.success, s) ∧
    a'.stack = [⟨0, 8⟩] ++ s.stack ∧ a'.tables[1]? = s.tables[1]? := by
  obtain ⟨a', h⟩ : ∃ a', argusParse Sample.world Sample.noEnv Sample.prog [c!"-v", c!"add", c!"5", c!"x", c!"y"] =
      .ok (.returned Err.success, a') := ⟨_, rfl⟩
  obtain ⟨s, h1, h2, h3⟩ := C97_inside Sample.world Sample.noEnv Sample.prog [c!"-v"] [c!"5", c!"x", c!"y"] c!"add" ⟨0, 8⟩ 1 a'
    sample_helpExits sample_allNamed sample_callsAdd (by unfold Apart; decide +kernel) h
  refine ⟨a', s, h, h1, ?_, h3 1 (by decide +kernel)⟩
  rw [h2]
  exact congrArg (· ++ _) (by decide +kernel : entered (Sample.prog.asks [c!"-v"]) = [])

/-- `prog admin -u me list` without a count ends as `list` by itself: something required is missing. -/
example (a2 : Argus) (e : ParseEnd)
    (h : argusParse Sample.world Sample.noEnv Sample.prog [c!"admin", c!"-u", c!"me", c!"list", c!"--force"] = .ok (e, a2)) :
    e = .returned Err.missingRequired := by
  obtain ⟨a1, h1⟩ : ∃ a1, argusParse Sample.world Sample.noEnv Sample.prog [c!"admin", c!"-u", c!"me", c!"list", c!"5", c!"x"] =
      .ok (.returned Err.success, a1) := ⟨_, rfl⟩
  obtain ⟨s, h2⟩ : ∃ s, argusParse Sample.world Sample.noEnv (Sample.prog.standAlone 1) [c!"--force"] =
      .ok (.returned Err.missingRequired, s) := ⟨_, rfl⟩
  exact C97_status Sample.world Sample.noEnv Sample.prog [c!"admin", c!"-u", c!"me"] [c!"5", c!"x"] c!"list" ⟨2, 2⟩ 1 [c!"--force"]
    a1 a2 s _ e sample_helpExits sample_allNamed sample_callsList (by unfold Apart; decide +kernel) (by unfold Apart; decide +kernel)
    h1 h2 h (by decide +kernel)

end Argus
