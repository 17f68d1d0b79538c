import Verif.Spec.Explicit
import Verif.Props.Spelling
import Verif.Props.Reading

/-!
# C91: every command line can be spelled out

Clusters of short options, attached and separate values, shortened subcommands (`source/core/parsing/*.c`) are all
conveniences: whatever is written with them can be written without.
-/

set_option autoImplicit false

namespace Argus

theorem Explicit.written {tables : List (List Opt)} {t : Option Nat} {pos : Nat} {only : Bool} {args : List Str} {acts : List Act}
    (h : Explicit tables t pos only args acts) : Written False tables t pos only args acts := by
  induction h with
  | done t pos only => exact .done t pos only
  | stop t pos rest acts _ ih => exact .stop t pos rest acts ih
  | flag t pos os name i o rest acts h1 h2 h3 h4 h5 h6 _ ih => exact .longFlag t pos os name i o rest acts h1 h2 h3 h4 h5 h6 ih
  | value t pos os name v i o rest acts h1 h2 h3 _ h5 h6 _ ih =>
    exact .longAttached t pos os name v i o rest acts h1 h2 h3 h5 h6 ih
  | command t pos os name i o rest acts h1 h2 _ h4 _ ih => exact .command t pos os name i o rest acts h1 h2 h4 ih
  | word t pos os arg i o rest acts h1 h2 h3 h4 _ ih => exact .word t pos os arg i o rest acts h1 h2 h3 h4 ih
  | number t pos os arg i o rest acts h1 h2 h3 _ ih => exact .number t pos os arg i o rest acts h1 h2 h3 ih
  | after t pos os arg i o rest acts h1 h2 h3 _ ih => exact .after t pos os arg i o rest acts h1 h2 h3 ih

variable {tables : List (List Opt)}

theorem Explicit.given {t pos i : Nat} {os : List Opt} {o : Opt} {rest : List Str} {acts : List Act} (hl : LongNamed tables)
    (hk : tables[t]? = some os) (ho : os[i]? = some o) (hty : o.type = .option) (v : Option Str)
    (hv : o.valueType = .flag ↔ v = none) (h : Explicit tables (some t) pos false rest acts) :
    ∃ arg, Explicit tables (some t) pos false (arg :: rest) (.give ⟨t, i⟩ v :: acts) := by
  obtain ⟨name, hc, hne, hlen, heq⟩ := hl os (List.mem_of_getElem? hk) i o ho hty
  cases v with
  | none => exact ⟨_, .flag t pos os name i o rest acts hk hc (hv.2 rfl) hne hlen heq h⟩
  | some v => exact ⟨_, .value t pos os name v i o rest acts hk hc (fun e => by simpa using hv.1 e) hne hlen heq h⟩

theorem Explicit.bundle {t pos : Nat} {os : List Opt} {cl : Str} {extra : List Str} {acts1 : List Act} (hl : LongNamed tables)
    (hk : tables[t]? = some os) (hb : Bundle t os cl extra acts1) {rest : List Str} {acts : List Act}
    (h : Explicit tables (some t) pos false rest acts) :
    ∃ args, Explicit tables (some t) pos false args (acts1 ++ acts) := by
  induction hb with
  | flag c i o hc hf =>
    obtain ⟨arg, h'⟩ := Explicit.given hl hk hc.1 hc.2.1.1 none (by simp [hf]) h
    exact ⟨_, h'⟩
  | flags c i o cs extra acts hc hf _ ih =>
    obtain ⟨args, h1⟩ := ih
    obtain ⟨arg, h'⟩ := Explicit.given hl hk hc.1 hc.2.1.1 none (by simp [hf]) h1
    exact ⟨_, h'⟩
  | attached c i o v hc hf hv =>
    obtain ⟨arg, h'⟩ := Explicit.given hl hk hc.1 hc.2.1.1 (some v) (by simp [hf]) h
    exact ⟨_, h'⟩
  | separate c i o v hc hf =>
    obtain ⟨arg, h'⟩ := Explicit.given hl hk hc.1 hc.2.1.1 (some v) (by simp [hf]) h
    exact ⟨_, h'⟩

theorem MeantSub.full {os : List Opt} {arg : Str} {i : Nat} {o : Opt} (h : MeantSub os arg i o) :
    ∃ name, o.name = some name ∧ o.type = .subcommand ∧ MeantSub os name i o := by
  obtain ⟨⟨ho, ⟨hty, rest, hn⟩, hfirst⟩, _⟩ := h
  refine ⟨arg ++ rest, hn, hty, ⟨ho, ⟨hty, [], by simpa using hn⟩, ?_⟩, .inl hn⟩
  rintro j o' hj ho' ⟨hty', r', hn'⟩
  exact hfirst j o' hj ho' ⟨hty', rest ++ r', by simpa using hn'⟩

theorem Written.explicit {drop : Prop} {t : Option Nat} {pos : Nat} {only : Bool} {args : List Str} {acts : List Act}
    (h : Written drop tables t pos only args acts) (hl : LongNamed tables) (hp : PlainSubs tables) :
    ∃ args', Explicit tables t pos only args' acts := by
  induction h with
  | done t pos only => exact ⟨_, .done t pos only⟩
  | stop t pos rest acts _ ih => obtain ⟨r, ih⟩ := ih; exact ⟨_, .stop t pos r acts ih⟩
  | longFlag t pos os name i o rest acts h1 h2 h3 h4 h5 h6 _ ih =>
    obtain ⟨r, ih⟩ := ih; exact ⟨_, .flag t pos os name i o r acts h1 h2 h3 h4 h5 h6 ih⟩
  | longAttached t pos os name v i o rest acts h1 h2 h3 h5 h6 _ ih =>
    obtain ⟨r, ih⟩ := ih
    obtain ⟨arg, h'⟩ := Explicit.given hl h1 h2.1 h2.2.1.1 (some v) (by simp [h3]) ih
    exact ⟨_, h'⟩
  | longSeparate t pos os name v i o rest acts h1 h2 h3 h4 h5 h6 _ ih =>
    obtain ⟨r, ih⟩ := ih; exact ⟨_, .value t pos os name v i o r acts h1 h2 h3 h4 h5 h6 ih⟩
  | short t pos os cl extra rest acts1 acts h1 h2 _ _ _ ih =>
    obtain ⟨r, ih⟩ := ih; exact Explicit.bundle hl h1 h2 ih
  | command t pos os arg i o rest acts h1 _ h3 _ ih =>
    obtain ⟨r, ih⟩ := ih
    obtain ⟨name, hn, hty, hm⟩ := h3.full
    exact ⟨_, .command t pos os name i o r acts h1
      (hp os (List.mem_of_getElem? h1) o (List.mem_of_getElem? h3.1.1) hty name hn) hn hm ih⟩
  | word t pos os arg i o rest acts h1 h2 h3 h4 _ ih =>
    obtain ⟨r, ih⟩ := ih; exact ⟨_, .word t pos os arg i o r acts h1 h2 h3 h4 ih⟩
  | number t pos os arg i o rest acts h1 h2 h3 _ ih =>
    obtain ⟨r, ih⟩ := ih; exact ⟨_, .number t pos os arg i o r acts h1 h2 h3 ih⟩
  | after t pos os arg i o rest acts h1 h2 h3 _ ih =>
    obtain ⟨r, ih⟩ := ih; exact ⟨_, .after t pos os arg i o r acts h1 h2 h3 ih⟩
  | dropDash t pos rest acts _ _ ih => exact ih
  | dropStop t pos rest acts _ _ ih => exact ih
  | dropValue t pos os name v i o rest acts _ h1 h2 h3 _ _ _ ih =>
    obtain ⟨r, ih⟩ := ih
    obtain ⟨arg, h'⟩ := Explicit.given hl h1 h2.1 h2.2.1.1 none (by simp [h3]) ih
    exact ⟨_, h'⟩
  | dropName t pos os name tail text i o rest acts _ _ _ _ _ _ _ _ _ ih => exact ih

/-- A spelled-out line has one argument for each wish, apart from `--`. -/
theorem Explicit.length {t : Option Nat} {pos : Nat} {only : Bool} {args : List Str} {acts : List Act}
    (h : Explicit tables t pos only args acts) :
    args.length = acts.length ∨ (only = false ∧ args.length = acts.length + 1) := by
  induction h with
  | done => exact .inl rfl
  | stop t pos rest acts _ ih => simp at ih; exact .inr ⟨rfl, by simp [ih]⟩
  | after t pos os arg i o rest acts h1 h2 h3 _ ih => simpa using ih
  | _ => simp_all

/-- The form of a spelled-out line is fixed by what is wanted, apart from where `--` stands. -/
theorem Explicit.form {t : Option Nat} {pos : Nat} {only : Bool} {args : List Str} {acts : List Act}
    (h : Explicit tables t pos only args acts) : args.filter (fun x => x != c!"--") = acts.map (Act.spelled tables) := by
  have keep : ∀ (x : Str) (xs : List Str), x ≠ c!"--" →
      (x :: xs).filter (fun x => x != c!"--") = x :: xs.filter (fun x => x != c!"--") := by
    intro x xs hx
    rw [List.filter_cons, if_pos (bne_iff_ne.2 hx)]
  have dash : ∀ x : Str, x.head? ≠ some 45 → x ≠ c!"--" := by
    rintro x hx rfl
    exact hx rfl
  induction h with
  | done => rfl
  | stop t pos rest acts _ ih => simpa using ih
  | flag t pos os name i o rest acts h1 h2 h3 h4 h5 h6 _ ih =>
    have : (c!"--" ++ name) ≠ c!"--" := by simpa using h4
    rw [keep _ _ this, ih, List.map_cons]
    simp [Act.spelled, h1, h2.1, h2.2.1.1, h2.2.1.2]
  | value t pos os name v i o rest acts h1 h2 h3 h4 h5 h6 _ ih =>
    have : (c!"--" ++ name ++ c!"=" ++ v) ≠ c!"--" := by simp
    rw [keep _ _ this, ih, List.map_cons]
    simp [Act.spelled, h1, h2.1, h2.2.1.1, h2.2.1.2]
  | command t pos os name i o rest acts h1 h2 h3 h4 _ ih =>
    rw [keep _ _ (dash _ h2), ih, List.map_cons]
    simp [Act.spelled, h1, h4.1.1, h3]
  | word t pos os arg i o rest acts h1 h2 h3 h4 _ ih =>
    rw [keep _ _ (dash _ h2), ih, List.map_cons]
    simp [Act.spelled, h1, (slotAt_get h4).1, (slotAt_get h4).2]
  | number t pos os arg i o rest acts h1 h2 h3 _ ih =>
    have : arg ≠ c!"--" := by
      obtain ⟨⟨d, r, hd, e | e⟩, _⟩ := h2
      · rintro rfl; simp at e; rw [← e.1] at hd; exact absurd hd (by decide)
      · rintro rfl; simp at e
    rw [keep _ _ this, ih, List.map_cons]
    simp [Act.spelled, h1, (slotAt_get h3).1, (slotAt_get h3).2]
  | after t pos os arg i o rest acts h1 h2 h3 _ ih =>
    rw [keep _ _ h2, ih, List.map_cons]
    simp [Act.spelled, h1, (slotAt_get h3).1, (slotAt_get h3).2]

/-- **C91** If all options have long names, every command line that makes sense can be spelled out: there is a line that calls
    each option by its long name, attaches each value with `=`, gives each subcommand its full name, has one argument for each
    thing wanted apart from one `--`, and has the same outcome in every environment: return value, error code, values,
    allocations and what was reported to handlers. -/
theorem C91_spelled_out (a : Argus) (args : List Str) (acts : List Act) (hl : LongNamed a.tables) (hp : PlainSubs a.tables)
    (h : Written True a.tables (some a.root) 0 false args acts) :
    ∃ args', Explicit a.tables (some a.root) 0 false args' acts ∧ args'.length ≤ acts.length + 1 ∧
      args'.filter (fun x => x != c!"--") = acts.map (Act.spelled a.tables) ∧
      ∀ (W : World) (env : Env), argusParse W env a args' = argusParse W env a args := by
  obtain ⟨args', he⟩ := h.explicit hl hp
  refine ⟨args', he, ?_, he.form, fun W env => ?_⟩
  · rcases he.length with h | h <;> omega
  · exact C58_same_reading_same_result W env a args' args (he.written.reads.1.trans h.reads.1.symm)

/-- **C91** In particular every line that is accepted can be spelled out. -/
theorem C91_accepted (W : World) (env : Env) (a a' : Argus) (args : List Str) (hl : LongNamed a.tables) (hp : PlainSubs a.tables)
    (hok : argusParse W env a args = .ok (.returned Err.success, a')) :
    ∃ args', Explicit a.tables (some a.root) 0 false args' (a.asks args) ∧
      argusParse W env a args' = .ok (.returned Err.success, a') := by
  obtain ⟨a1, _, h1, _⟩ := argusParse_success hok
  rw [parseArgs_run] at h1
  have hw := written_of_meaning (tables := a.tables) _ args (Nat.le_refl _) (some a.root) 0 false
    (run_success_wishes W _ a a1 h1 (asks_no_fail0 a args))
  obtain ⟨args', he, _, _, hs⟩ := C91_spelled_out a args _ hl hp hw
  exact ⟨args', he, by rw [hs W env]; exact hok⟩

/-- **C91** A wish is spelled out in one way: lines that spell out the same differ at most in where `--` stands. -/
theorem C91_unique (a : Argus) (args args' : List Str) (acts : List Act)
    (h : Explicit a.tables (some a.root) 0 false args acts) (h' : Explicit a.tables (some a.root) 0 false args' acts) :
    args.filter (fun x => x != c!"--") = args'.filter (fun x => x != c!"--") := h.form.trans h'.form.symm

/-- Long names that are distinct, of at most 63 bytes and without `=` can all be called. -/
theorem longNamed_of_distinct {tables : List (List Opt)}
    (hn : ∀ os ∈ tables, ∀ o ∈ os, o.type = .option → ∃ name, o.lname = some name ∧ name ≠ [] ∧ name.length ≤ 63 ∧ (61 : Byte) ∉ name)
    (hd : ∀ os ∈ tables, os.Pairwise fun x y => ∀ l, x.lname = some l → y.lname ≠ some l) : LongNamed tables := by
  intro os hos i o ho hty
  obtain ⟨name, h1, h2, h3, h4⟩ := hn os hos o (List.mem_of_getElem? ho) hty
  refine ⟨name, ⟨ho, ⟨hty, h1⟩, ?_⟩, h2, h3, h4⟩
  rintro j o' hj ho' ⟨_, hl⟩
  obtain ⟨hj', e1⟩ := List.getElem?_eq_some_iff.1 ho'
  obtain ⟨hi', e2⟩ := List.getElem?_eq_some_iff.1 ho
  have := List.pairwise_iff_getElem.1 (hd os hos) j i hj' hi' hj name (e1 ▸ hl)
  exact this (e2 ▸ h1)

theorem prog_longNamed : LongNamed Sample.prog.tables := by
  refine longNamed_of_distinct ?_ ?_
  · have : ∀ os ∈ Sample.prog.tables, ∀ o ∈ os, o.type = .option →
        o.lname.any (fun name => name != [] && decide (name.length ≤ 63) && !name.contains 61) = true := by decide +kernel
    intro os hos o ho hty
    have h := this os hos o ho hty
    cases hl : o.lname with
    | none => rw [hl] at h; simp at h
    | some name =>
      rw [hl] at h
      simp only [Option.any_some, Bool.and_eq_true, bne_iff_ne, ne_eq, decide_eq_true_eq, Bool.not_eq_true',
        List.contains_eq_mem, decide_eq_false_iff_not] at h
      exact ⟨name, rfl, h.1.1, h.1.2, h.2⟩
  · have : ∀ os ∈ Sample.prog.tables, os.Pairwise fun x y => x.lname = none ∨ x.lname ≠ y.lname := by decide +kernel
    intro os hos
    refine (this os hos).imp ?_
    intro x y h l hl hy
    rcases h with h | h
    · rw [h] at hl; exact absurd hl (by simp)
    · exact h (hl.trans hy.symm)

theorem prog_plainSubs : PlainSubs Sample.prog.tables := by
  have : ∀ os ∈ Sample.prog.tables, ∀ o ∈ os, o.type = .subcommand → (o.name.all fun name => name.head? != some 45) = true := by
    decide +kernel
  intro os hos o ho hty name hn
  have h := this os hos o ho hty
  rw [hn] at h; simpa using h

/-- `prog -vo x - adm -uroot li -f -5 -- a -- b` is spelled out as
    `prog --verbose --output=x admin --user=root list --force -5 -- a b`, with the same outcome. -/
example : LongNamed Sample.prog.tables ∧ PlainSubs Sample.prog.tables ∧
    (∀ args', Explicit Sample.prog.tables (some 0) 0 false args' (Sample.prog.asks
        [c!"-vo", c!"x", c!"-", c!"adm", c!"-uroot", c!"li", c!"-f", c!"-5", c!"--", c!"a", c!"--", c!"b"]) →
      args'.filter (fun x => x != c!"--") =
        [c!"--verbose", c!"--output=x", c!"admin", c!"--user=root", c!"list", c!"--force", c!"-5", c!"a", c!"b"]) ∧
    ∃ a', argusParse Sample.world Sample.noEnv Sample.prog
        [c!"-vo", c!"x", c!"-", c!"adm", c!"-uroot", c!"li", c!"-f", c!"-5", c!"--", c!"a", c!"--", c!"b"] =
        .ok (.returned Err.success, a') ∧
      ∃ args', Explicit Sample.prog.tables (some 0) 0 false args' (Sample.prog.asks
        [c!"-vo", c!"x", c!"-", c!"adm", c!"-uroot", c!"li", c!"-f", c!"-5", c!"--", c!"a", c!"--", c!"b"]) ∧
        argusParse Sample.world Sample.noEnv Sample.prog args' = .ok (.returned Err.success, a') := by
  refine ⟨prog_longNamed, prog_plainSubs, fun args' h => h.form.trans (by decide +kernel), ?_⟩
  have key : ∀ a', argusParse Sample.world Sample.noEnv Sample.prog
        [c!"-vo", c!"x", c!"-", c!"adm", c!"-uroot", c!"li", c!"-f", c!"-5", c!"--", c!"a", c!"--", c!"b"] =
        .ok (.returned Err.success, a') → ∃ args', Explicit Sample.prog.tables (some 0) 0 false args' (Sample.prog.asks
        [c!"-vo", c!"x", c!"-", c!"adm", c!"-uroot", c!"li", c!"-f", c!"-5", c!"--", c!"a", c!"--", c!"b"]) ∧
        argusParse Sample.world Sample.noEnv Sample.prog args' = .ok (.returned Err.success, a') :=
    fun a' h => C91_accepted _ _ _ _ _ prog_longNamed prog_plainSubs h
  obtain ⟨a', h⟩ : ∃ a', argusParse Sample.world Sample.noEnv Sample.prog
        [c!"-vo", c!"x", c!"-", c!"adm", c!"-uroot", c!"li", c!"-f", c!"-5", c!"--", c!"a", c!"--", c!"b"] =
        .ok (.returned Err.success, a') := ⟨_, rfl⟩
  exact ⟨a', h, key a' h⟩

end Argus
