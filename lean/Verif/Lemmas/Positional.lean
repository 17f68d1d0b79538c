import Verif.Lemmas.Syntax
import Verif.Lemmas.FrameApi

/-! Helper lemmas on positional arguments. -/

set_option autoImplicit false

namespace Argus

theorem handlePositional_slot (W : World) (a : Argus) (k : Nat) (v : Str) (pos : Nat) :
    handlePositional W a (some k) v pos = (do
      let os ← a.table (some k)
      match slotAt os pos with
      | none => .ok (Err.invalidArgument, a.report Err.invalidArgument)
      | some (_, i) => execCallbacks W a ⟨k, i⟩ (some v)) := by
  unfold handlePositional
  cases a.table (some k) with
  | ub u => rfl
  | ok os =>
    simp only [Out.ok_bind, findPositional_at]
    cases slotAt os pos with
    | none => rfl
    | some x => rfl

/-- After `--` the loop is `deliver`. -/
theorem parseLoop_only (W : World) (k : Nat) : ∀ (post : List Str) (a : Argus) (pos : Nat),
    parseLoop W (some k) a pos true false post =
      deliver W k a pos (post.filter (fun x => x ≠ c!"--"))
  | [], a, pos => by simp [parseLoop, deliver]
  | v :: post, a, pos => by
    have ih := parseLoop_only W k post
    by_cases hv : v = c!"--"
    · rw [List.filter_cons_of_neg (by simp [hv])]
      unfold parseLoop
      have e : parseStep W (some k) a pos true v post = .ok (.next a pos true false) := by
        unfold parseStep; rw [if_pos hv]
      rw [e]
      exact ih a pos
    · rw [List.filter_cons_of_pos (by simp [hv])]
      unfold parseLoop deliver
      have e : parseStep W (some k) a pos true v post =
          stepPositional W (some k) a pos true v := by
        unfold parseStep; rw [if_neg hv]; simp
      rw [e]
      unfold stepPositional
      rw [handlePositional_slot]
      cases a.table (some k) with
      | ub u => rfl
      | ok os =>
        simp only [Out.ok_bind]
        cases slotAt os pos with
        | none => rfl
        | some x =>
          simp only
          cases execCallbacks W a ⟨k, x.2⟩ (some v) with
          | ub u => rfl
          | ok r =>
            simp only [Out.ok_bind]
            by_cases h0 : r.1 = Err.success
            · simp only [h0, ne_eq, not_true_eq_false, if_false]
              exact ih r.2 (pos + 1)
            · simp only [h0, ne_eq, not_false_eq_true, if_true]

/-- No subcommand name starts with `v`. -/
theorem findSubFrom_none {v : Str} : ∀ (os : List Opt) (i : Nat) (sub : Option Nat),
    (∀ o ∈ os, o.type = .subcommand → ∀ n, o.name = some n → ¬ v <+: n) →
    findSubFrom v i sub os = (Err.success, sub)
  | [], _, _, _ => rfl
  | o :: os, i, sub, h => by
    unfold findSubFrom
    have ih := findSubFrom_none os (i + 1) sub (fun x hx => h x (by simp [hx]))
    split
    · rename_i n ht hn
      have := (startsWith_eq_none_iff v n).2 (h o (by simp) ht n hn)
      simp only [this, Option.isSome_none, Bool.false_eq_true, if_false]
      exact ih
    · exact ih

theorem startsWith_dash_none {p v : Str} (hp : p.head? = some 45) (h : v.head? ≠ some 45) :
    startsWith p v = none := by
  rw [startsWith_eq_none_iff]
  rintro ⟨r, hr⟩
  cases p with
  | nil => simp at hp
  | cons c p =>
    rw [← hr] at h; exact h hp

/-- One round for an argument that is neither an option nor a subcommand. -/
theorem parseStep_plain {W : World} {k : Nat} {a : Argus} {pos : Nat} {v : Str} {os : List Opt}
    (ht : a.table (some k) = .ok os) (hd : v.head? ≠ some 45)
    (hsub : ∀ o ∈ os, o.type = .subcommand → ∀ n, o.name = some n → ¬ v <+: n) (rest : List Str) :
    parseStep W (some k) a pos false v rest = stepPositional W (some k) a pos false v := by
  unfold parseStep
  have h1 : v ≠ [45, 45] := by rintro rfl; exact hd rfl
  rw [if_neg h1, startsWith_dash_none rfl hd, startsWith_dash_none rfl hd, ht]
  simp only [Out.ok_bind, findSub, findSubFrom_none os 0 none hsub, Bool.false_eq_true, if_false,
    ne_eq, not_true_eq_false]

/-- The plainness of an argument depends on metadata only. -/
theorem noSub_meta {os os' : List Opt} (h : os'.map Opt.meta = os.map Opt.meta) {v : Str}
    (hs : ∀ o ∈ os, o.type = .subcommand → ∀ n, o.name = some n → ¬ v <+: n) :
    ∀ o ∈ os', o.type = .subcommand → ∀ n, o.name = some n → ¬ v <+: n := by
  intro o ho ht n hn
  have : o.meta ∈ os.map Opt.meta := by rw [← h]; exact List.mem_map_of_mem ho
  obtain ⟨o1, h1, h2⟩ := List.mem_map.1 this
  have e1 := congrArg Opt.type h2
  have e2 := congrArg Opt.name h2
  exact hs o1 h1 (e1.trans ht) n (e2.trans hn)

/-- Plain arguments without `--`: the loop is `deliver`. -/
theorem parseLoop_plain (W : World) (k : Nat) : ∀ (vs : List Str) (a : Argus) (pos : Nat)
    (os : List Opt), a.table (some k) = .ok os → (∀ v ∈ vs, v.head? ≠ some 45) →
    (∀ v ∈ vs, ∀ o ∈ os, o.type = .subcommand → ∀ n, o.name = some n → ¬ v <+: n) →
    parseLoop W (some k) a pos false false vs = deliver W k a pos vs
  | [], a, pos, os, _, _, _ => by simp [parseLoop, deliver]
  | v :: vs, a, pos, os, ht, hd, hsub => by
    unfold parseLoop deliver
    rw [parseStep_plain ht (hd v (by simp)) (hsub v (by simp))]
    unfold stepPositional
    rw [handlePositional_slot, ht]
    simp only [Out.ok_bind]
    cases slotAt os pos with
    | none => rfl
    | some x =>
      simp only
      cases hr : execCallbacks W a ⟨k, x.2⟩ (some v) with
      | ub u => rfl
      | ok r =>
        simp only [Out.ok_bind]
        by_cases h0 : r.1 = Err.success
        · simp only [h0, ne_eq, not_true_eq_false, if_false]
          obtain ⟨os', h1, h2⟩ := shape_table (execCallbacks_one hr).frame.shape ht
          refine parseLoop_plain W k vs r.2 (pos + 1) os' h1 (fun w hw => hd w (by simp [hw])) ?_
          intro w hw
          exact noSub_meta h2 (hsub w (by simp [hw]))
        · simp only [h0, ne_eq, not_false_eq_true, if_true]

/-- Delivering changes positionals of the table only, and not the command stack. -/
theorem deliver_frame {W : World} {k : Nat} : ∀ (vs : List Str) {a : Argus} {pos : Nat}
    {r : Int × Argus}, deliver W k a pos vs = .ok r →
    InTable (some k) a r.2 ∧ ∀ p o, a.getOpt p = .ok o → o.type ≠ .positional → r.2.getOpt p = .ok o
  | [], a, pos, r, h => by
    simp only [deliver, Out.ok.injEq] at h; subst h; exact ⟨.refl _ _, fun _ _ h _ => h⟩
  | v :: vs, a, pos, r, h => by
    unfold deliver at h
    obtain ⟨os, hos, h1⟩ := Out.bind_eq_ok h
    split at h1
    · simp only [Out.ok.injEq] at h1; subst h1
      exact ⟨.report _ _ _, fun _ _ h _ => h⟩
    · rename_i o i hsl
      obtain ⟨q, hq, h2⟩ := Out.bind_eq_ok h1
      have hone := execCallbacks_one hq
      have hkeep : ∀ p o, a.getOpt p = .ok o → o.type ≠ .positional → q.2.getOpt p = .ok o := by
        intro p o1 h3 h4
        rw [hone.others p ?_]
        · exact h3
        · rintro rfl
          have := slotAt_get hsl
          rw [table_getOpt hos this.1] at h3
          cases h3
          exact h4 this.2
      split at h2
      · simp only [Out.ok.injEq] at h2; subst h2; exact ⟨hone.inTable, hkeep⟩
      · obtain ⟨h3, h4⟩ := deliver_frame vs h2
        exact ⟨hone.inTable.trans h3, fun p o h5 h6 => h4 p o (hkeep p o h5 h6) h6⟩

/-! ### Tables whose positionals are plain strings -/

/-- Indices of the positionals of a table. -/
def posIdx (os : List Opt) : List Nat :=
  (os.zipIdx.filter (fun x => x.1.type = .positional)).map (·.2)

theorem posIdx_nodup (os : List Opt) : (posIdx os).Nodup := by
  unfold posIdx
  refine List.Nodup.sublist (List.Sublist.map _ List.filter_sublist) ?_
  rw [List.zipIdx_map_snd]
  exact List.nodup_range'

theorem posIdx_meta {os os' : List Opt} (h : os'.map Opt.meta = os.map Opt.meta) :
    posIdx os' = posIdx os := by
  have key : ∀ l : List Opt, posIdx l = posIdx (l.map Opt.meta) := by
    intro l
    unfold posIdx
    rw [List.zipIdx_map, List.filter_map, List.map_map]
    rfl
  rw [key, key os, h]

theorem slotAt_noVariadic {os : List Opt}
    (h : ∀ o ∈ os, o.type = .positional → o.valueType.isVariadic = false) (k : Nat) :
    slotAt os k = (os.zipIdx.filter (fun x => x.1.type = .positional))[k]? := by
  unfold slotAt slotBy
  have : (List.take (k + 1) (os.zipIdx.filter (fun x => x.1.type = .positional))).find?
      (fun x => x.1.valueType.isVariadic) = none := by
    rw [List.find?_eq_none]
    rintro ⟨o, i⟩ hx
    have h1 := List.mem_filter.1 (List.mem_of_mem_take hx)
    have h2 := List.mem_of_getElem? (List.mk_mem_zipIdx_iff_getElem?.1 h1.1)
    simp [h o h2 (by simpa using h1.2)]
  rw [this]

theorem slotAt_posIdx {os : List Opt}
    (h : ∀ o ∈ os, o.type = .positional → o.valueType.isVariadic = false) (k : Nat) :
    (slotAt os k).map (·.2) = (posIdx os)[k]? := by
  rw [slotAt_noVariadic h]; simp [posIdx]

theorem execCallbacks_string {W : World} {a : Argus} {p : Ptr} {o : Opt} (ho : a.getOpt p = .ok o)
    (hp : PlainString o) (v : Str) :
    execCallbacks W a p (some v) =
      .ok (Err.success, a.setOpt p { o with value := .word (.ptr v) }.markSet) := by
  unfold execCallbacks
  rw [ho]
  simp [hp.handler, hp.validators, hp.exit, runPreAll, runHandler, Word.ofArg, Opt.markSet]

theorem deliver_strings {W : World} {k : Nat} : ∀ (vs : List Str) (a : Argus) (pos : Nat)
    (os : List Opt), a.table (some k) = .ok os →
    (∀ o ∈ os, o.type = .positional → PlainString o) →
    pos + vs.length ≤ (positionals os).length →
    ∃ a', deliver W k a pos vs = .ok (Err.success, a') ∧
      (∀ j v, vs[j]? = some v → ∃ i o, (posIdx os)[pos + j]? = some i ∧ a'.getOpt ⟨k, i⟩ = .ok o ∧
        o.value = .word (.ptr v) ∧ o.isSet = true) ∧
      (∀ q, (∀ i, q = ⟨k, i⟩ → i ∉ (posIdx os).drop pos) → a'.getOpt q = a.getOpt q)
  | [], a, pos, os, _, _, _ => ⟨a, rfl, by simp, fun _ _ => rfl⟩
  | v :: vs, a, pos, os, ht, hp, hlen => by
    have hnv : ∀ o ∈ os, o.type = .positional → o.valueType.isVariadic = false := by
      intro o ho h1; rw [(hp o ho h1).valueType]; rfl
    have hl : (posIdx os).length = (positionals os).length := by
      have e := congrArg List.length (show positionals os =
        (os.zipIdx.filter (fun x => x.1.type = .positional)).map Prod.fst from ?_)
      · rw [e]; simp [posIdx]
      · unfold positionals
        have h1 : os = os.zipIdx.map Prod.fst := by simp
        conv => lhs; rw [h1]
        rw [List.filter_map]; rfl
    simp only [List.length_cons] at hlen
    have hlt : pos < (posIdx os).length := by omega
    have hsl := slotAt_posIdx hnv pos
    rw [List.getElem?_eq_getElem hlt] at hsl
    cases hs : slotAt os pos with
    | none => rw [hs] at hsl; simp at hsl
    | some x =>
      obtain ⟨o, i⟩ := x
      rw [hs] at hsl
      simp only [Option.map_some, Option.some.injEq] at hsl
      obtain ⟨hoi, hty⟩ := slotAt_get hs
      have hg := table_getOpt ht hoi
      have hex := execCallbacks_string (W := W) hg (hp o (List.mem_of_getElem? hoi) hty) v
      have hone := execCallbacks_one hex
      obtain ⟨os', ht', hm⟩ := shape_table hone.frame.shape ht
      have hp' : ∀ o ∈ os', o.type = .positional → PlainString o := by
        intro o1 ho1 hty1
        have : o1.meta ∈ os.map Opt.meta := by rw [← hm]; exact List.mem_map_of_mem ho1
        obtain ⟨o2, h2, h3⟩ := List.mem_map.1 this
        have e1 := congrArg Opt.type h3
        have := hp o2 h2 (e1.trans hty1)
        exact ⟨(congrArg Opt.handler h3).symm.trans this.handler,
          (congrArg Opt.valueType h3).symm.trans this.valueType,
          (congrArg Opt.validators h3).symm.trans this.validators,
          by rw [← this.exit]; exact congrArg (fun o => o.flags.has .exit) h3.symm⟩
      have hlen' : (positionals os').length = (positionals os).length := by
        have : ∀ l : List Opt, (positionals l).length = (posIdx l).length := by
          intro l
          have e : positionals l =
            (l.zipIdx.filter (fun x => x.1.type = .positional)).map Prod.fst := by
            unfold positionals
            have h1 : l = l.zipIdx.map Prod.fst := by simp
            conv => lhs; rw [h1]
            rw [List.filter_map]; rfl
          rw [e]; simp [posIdx]
        rw [this, this, posIdx_meta hm]
      obtain ⟨a', h1, h2, h3⟩ := deliver_strings (W := W) vs _ (pos + 1) os' ht' hp'
        (by rw [hlen']; omega)
      rw [posIdx_meta hm] at h2 h3
      refine ⟨a', ?_, ?_, ?_⟩
      · unfold deliver
        rw [ht]
        simp only [Out.ok_bind, hs, hex, ne_eq, not_true_eq_false, if_false]
        exact h1
      · intro j w hj
        cases j with
        | zero =>
          simp only [List.getElem?_cons_zero, Option.some.injEq] at hj
          subst hj
          refine ⟨i, _, by rw [Nat.add_zero, List.getElem?_eq_getElem hlt, hsl],
            (h3 ⟨k, i⟩ ?_).trans (getOpt_setOpt_self hg), rfl, rfl⟩
          intro i' hi' hmem
          cases hi'
          obtain ⟨m, hm1, hm2⟩ := List.getElem_of_mem hmem
          rw [List.getElem_drop, hsl] at hm2
          have := (List.getElem_inj (posIdx_nodup os)).1 hm2
          omega
        | succ j =>
          simp only [List.getElem?_cons_succ] at hj
          obtain ⟨i', o', h5, h6⟩ := h2 j w hj
          exact ⟨i', o', by rw [show pos + (j + 1) = pos + 1 + j by omega]; exact h5, h6⟩
      · intro q hq
        rw [h3 q ?_, hone.others q ?_]
        · rintro rfl
          exact hq i rfl (by rw [List.drop_eq_getElem_cons hlt, ← hsl]; exact List.mem_cons_self)
        · intro i' hi' hmem
          exact hq i' hi' (by rw [List.drop_eq_getElem_cons hlt]; exact List.mem_cons_of_mem _ hmem)

end Argus
