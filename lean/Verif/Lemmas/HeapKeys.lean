import Verif.Lemmas.HeapProgram
import Verif.Spec.HeapParse

/-!
# Lemmas: the keys a parse loses
-/

set_option autoImplicit false

namespace Argus

/-- What remains to be given was there from the start. -/
structure FromStart (a : Argus) (all : List Act) (b : Argus) (xs : List Act) : Prop where
  shape : b.shape = a.shape
  pre : b.envPrefix = a.envPrefix
  sub : ∀ x ∈ xs, x ∈ all

theorem IsMapOption.splits {o : Opt} {vt : ValueType} (hm : IsMapOption o vt) {hd : Handler} (hh : o.handler = some hd) :
    hd.splits = true := by
  cases hm <;> (rename_i g _; rw [hh] at g; simp only [Option.some.injEq] at g; subst g; rfl)

theorem Static.map_env {o : Opt} {vt : ValueType} (h : Static o) (hm : IsMapOption o vt) : o.flags.has .envOverride = false := by
  cases hm <;> (rename_i g _; exact h.env _ g rfl)

theorem Losing.keys {W : World} {o : Opt} {arg : Option Str} {ks : List Str} (h : Losing W o arg ks) :
    ∀ k ∈ ks, ∃ t v, arg = some t ∧ IsMapOption o o.valueType ∧ (61 : Byte) ∉ k ∧ k ++ c!"=" ++ v ∈ pieces t := by
  intro k hk
  rcases h with h | ⟨t, h1, h2, h3⟩
  · rw [h] at hk; simp at hk
  · obtain ⟨g1, v, g2⟩ := h3.keys k hk
    exact ⟨t, v, h1, h2, g1, g2⟩

theorem tracks_written (W : World) (env : Env) (a : Argus) (args : List Str) :
    Tracks W env (FromStart a (a.asks args)) (a.WrittenKey args env) where
  give := fun ho _ _ hE h => ⟨(execCallbacks_one h).frame.shape.trans hE.shape, (execCallbacks_one h).frame.envPrefix.trans hE.pre,
    fun x hx => hE.sub x (by simp [hx])⟩
  enter := fun ho _ hE h => ⟨(enterSub_frame h).1.shape.trans hE.shape, (enterSub_frame h).1.envPrefix.trans hE.pre,
    fun x hx => hE.sub x (by simp [hx])⟩
  lost := by
    intro b p o t xs ks ho _ hE hl k hk
    obtain ⟨t', v, h1, h2, h3, h4⟩ := hl.keys k hk
    subst h1
    obtain ⟨o0, g1, g2⟩ := shape_getOpt hE.shape.symm ho
    have hv : o0.valueType = o.valueType := (congrArg Opt.valueType g2 : o0.meta.valueType = o.meta.valueType)
    refine ⟨p, o0, t', v, g1, by rw [hv]; exact h2.of_meta g2, ?_, h3, h4⟩
    refine List.mem_append_left _ ?_
    have := hE.sub (.give p (some t')) (by simp)
    unfold textsOf
    exact List.mem_filterMap.2 ⟨_, this, by simp⟩
  envGive := fun ho _ _ hE _ _ h => ⟨(execCallbacks_one h).frame.shape.trans hE.shape,
    (execCallbacks_one h).frame.envPrefix.trans hE.pre, by simp⟩
  envLost := by
    intro b p o v ks ho _ hE _ hb hl k hk
    obtain ⟨t', w, h1, h2, h3, h4⟩ := hl.keys k hk
    simp only [Option.some.injEq] at h1
    subst h1
    obtain ⟨o0, g1, g2⟩ := shape_getOpt hE.shape.symm ho
    have hv : o0.valueType = o.valueType := (congrArg Opt.valueType g2 : o0.meta.valueType = o.meta.valueType)
    refine ⟨p, o0, v, w, g1, by rw [hv]; exact h2.of_meta g2, List.mem_append_right _ ?_, h3, h4⟩
    rw [envVarName_meta g2, ← hE.pre, hb]
    simp
  same := fun ht hp hE => ⟨(shape_congr ht).trans hE.shape, hp.trans hE.pre, hE.sub⟩

/-! ### Different keys -/

/-- The texts still to be given to an option. -/
def restTexts (env : Env) (b : Argus) (xs : List Act) (q : Ptr) (o : Opt) : List (Option Str) :=
  textsOf q xs ++ (if o.isSet = true ∨ textsOf q xs ≠ [] then [] else envTexts b.envPrefix env o)

/-- All keys still to be given to a map, and those it holds, are different. -/
def MapApart (W : World) (env : Env) (b : Argus) (xs : List Act) (q : Ptr) (o : Opt) : Prop :=
  IsMapOption o o.valueType → ∃ es pss ts, MapS o es ∧ (o.isSet = true → es ≠ []) ∧ restTexts env b xs q o = ts.map some ∧
    OccurrencePairs W o.valueType ts pss ∧ (es.map Prod.fst ++ pss.flatten.map Prod.fst).Nodup

theorem MapApart.same {W : World} {env : Env} {b b' : Argus} {xs ys : List Act} {q : Ptr} {o : Opt} (h : MapApart W env b xs q o)
    (hp : b'.envPrefix = b.envPrefix) (ht : textsOf q ys = textsOf q xs) : MapApart W env b' ys q o := by
  intro hm
  obtain ⟨es, pss, ts, h1, h2, h3, h4⟩ := h hm
  refine ⟨es, pss, ts, h1, h2, ?_, h4⟩
  rw [← h3]
  unfold restTexts
  rw [ht, hp]

/-- A map takes the next text. -/
theorem MapApart.given {W : World} {env : Env} {b b' : Argus} {xs ys : List Act} {q : Ptr} {o o' : Opt} {t : Str} {later : List (Option Str)}
    (h : MapApart W env b xs q o) (hr : restTexts env b xs q o = some t :: later) (hl : textsOf q ys = later)
    (hH : ∀ x, o.handler = some x → HarmlessTo o x t) (hm' : o'.meta = o.meta) (hg : o.give W (some t) = some o') :
    MapApart W env b' ys q o' := by
  intro hm
  have hvt : o'.valueType = o.valueType := (congrArg Opt.valueType hm' : o'.meta.valueType = o.meta.valueType)
  have hmo : IsMapOption o o.valueType := by rw [← hvt]; exact hm.of_meta hm'.symm
  obtain ⟨es, pss, ts, h1, h2, h3, h4, h5⟩ := h hmo
  cases ts with
  | nil => rw [hr] at h3; cases h3
  | cons t' ts =>
    rw [hr] at h3
    simp only [List.map_cons, List.cons.injEq, Option.some.injEq] at h3
    obtain ⟨rfl, h3⟩ := h3
    obtain ⟨ps, pss', rfl, hp1, hp2⟩ := h4
    simp only [List.flatten_cons, List.map_append, ← List.append_assoc] at h5
    obtain ⟨hd, hh, _⟩ := hmo.run (W := W)
    have hsp : hd.splits = true := hmo.splits hh
    have hne : es ≠ [] ∨ ps ≠ [] := by
      cases hset : o.isSet with
      | true => exact .inl (h2 hset)
      | false =>
        refine .inr ?_
        rintro rfl
        obtain ⟨qs, g1, g2, _⟩ := hp1
        have hq : qs = [] := by simpa using g2.symm
        subst hq
        exact (hH hd hh).1 hsp hset (by simpa using g1)
    obtain ⟨o1, es1, e1, e2, e3, e4, _⟩ := give_mapS W hmo h1 hp1 hne
    rw [hg] at e1
    simp only [Option.some.injEq] at e1
    subst e1
    have hset' : o'.isSet = true := by
      unfold Opt.give at hg
      rw [hh] at hg
      simp only at hg
      split at hg
      · split at hg
        · simp only [Option.some.injEq] at hg; subst hg; rfl
        · cases hg
      · cases hg
    refine ⟨es1, pss', ts, e2, fun _ => e3, ?_, by rw [hvt]; exact hp2, ?_⟩
    · unfold restTexts
      rw [if_pos (.inl hset'), hl, List.append_nil]
      exact h3
    · rw [List.nodup_append] at h5 ⊢
      refine ⟨e2.nodup, h5.2.1, fun a ha b hb => h5.2.2 a ?_ b hb⟩
      obtain ⟨e, he, rfl⟩ := List.mem_map.1 ha
      obtain ⟨l, g1, g2⟩ := e4.sub
      rcases puts_mem ps es (g2.subset (g1.mem_iff.1 he)) with h | h
      · exact List.mem_append.2 (.inl (List.mem_map.2 ⟨e, h, rfl⟩))
      · exact List.mem_append.2 (.inr (List.mem_map.2 ⟨e, h, rfl⟩))

theorem MapApart.lost {W : World} {env : Env} {b : Argus} {xs : List Act} {q : Ptr} {o : Opt} {t : Str} {later : List (Option Str)}
    (h : MapApart W env b xs q o) (hr : restTexts env b xs q o = some t :: later) {ks : List Str} (hl : Losing W o (some t) ks) :
    ks = [] := by
  rcases hl with hl | ⟨t', h1, hm, h2⟩
  · exact hl
  · simp only [Option.some.injEq] at h1
    subst h1
    obtain ⟨es, pss, ts, g1, g2, g3, g4, g5⟩ := h hm
    cases ts with
    | nil => rw [hr] at g3; cases g3
    | cons t' ts =>
      rw [hr] at g3
      simp only [List.map_cons, List.cons.injEq, Option.some.injEq] at g3
      obtain ⟨rfl, g3⟩ := g3
      obtain ⟨ps, pss', rfl, hp1, hp2⟩ := g4
      simp only [List.flatten_cons, List.map_append, ← List.append_assoc] at g5
      rw [g1.keys] at h2
      exact h2.distinct ps hp1 (List.nodup_append.1 g5).1

theorem rest_give {env : Env} {b : Argus} {xs : List Act} {q : Ptr} {o : Opt} (t : Option Str) :
    restTexts env b (.give q t :: xs) q o = t :: textsOf q xs := by
  unfold restTexts
  rw [textsOf_give_self, if_pos (.inr (by simp)), List.append_nil]

theorem rest_env {env : Env} {b : Argus} {q : Ptr} {o : Opt} {v : Str} (hm : o.flags.has .envOverride = false)
    (hn : ¬ (o.isSet = true ∧ o.flags.has .envOverride = false)) (hb : (envVarName b.envPrefix o).bind env = some v) :
    restTexts env b [] q o = [some v] := by
  have hset : o.isSet ≠ true := fun h => hn ⟨h, hm⟩
  unfold restTexts
  have : textsOf q [] = [] := rfl
  rw [this, if_neg (by rintro (h | h); exact hset h; exact h rfl)]
  unfold envTexts
  rw [hb]
  rfl

/-- Nothing is lost. -/
theorem tracks_apart (W : World) (env : Env) :
    Tracks W env (fun b xs => ∀ q o, b.getOpt q = .ok o → MapApart W env b xs q o) (fun _ => False) where
  give := by
    intro b b' p o t xs ho hs hH hE h q o' ho'
    have one := execCallbacks_one h
    by_cases hq : q = p
    · subst hq
      obtain ⟨o1, o2, es, g1, g2, g3⟩ := execCallbacks_success h
      rw [ho] at g1; simp only [Out.ok.injEq] at g1; subst g1
      have : o' = o2 := by
        rw [g3] at ho'
        have ho2 : (b.emits es).getOpt q = .ok o := by simpa using ho
        rw [getOpt_setOpt_self ho2] at ho'
        simpa using ho'.symm
      subst this
      obtain ⟨o3, g4, g5⟩ := shape_getOpt one.frame.shape ho
      rw [ho'] at g4; simp only [Out.ok.injEq] at g4; subst g4
      cases t with
      | some t => exact (hE q o ho).given (rest_give (some t)) rfl (fun x hx => hH t x rfl hx) g5 g2
      | none =>
        intro hm
        have hvt : o'.valueType = o.valueType := (congrArg Opt.valueType g5 : o'.meta.valueType = o.meta.valueType)
        have hmo : IsMapOption o o.valueType := by rw [← hvt]; exact hm.of_meta g5.symm
        obtain ⟨es, pss, ts, _, _, h3, _⟩ := hE q o ho hmo
        rw [rest_give] at h3
        cases ts <;> simp at h3
    · rw [one.others q hq] at ho'
      exact (hE q o' ho').same one.frame.envPrefix (textsOf_give_ne hq t xs).symm
  enter := by
    intro b p o xs e ho hh hE h q o' ho'
    unfold enterSub at h
    rw [ho, Out.ok_bind] at h
    split at h
    · cases h
    · simp only [Out.ok.injEq] at h
      subst h
      have ho' : (b.setOpt p { o with isSet := true }).getOpt q = .ok o' := ho'
      by_cases hq : q = p
      · subst hq
        rw [getOpt_setOpt_self ho] at ho'
        simp only [Out.ok.injEq] at ho'; subst ho'
        intro hm
        obtain ⟨hd, hx, _⟩ := hm.run (W := W)
        have hx : o.handler = some hd := hx
        rw [hh] at hx; cases hx
      · rw [getOpt_setOpt_ne hq] at ho'
        exact (hE q o' ho').same rfl (by simp [textsOf])
  lost := by
    intro b p o t xs ks ho hs hE hl k hk
    cases t with
    | none =>
      rcases hl with hl | ⟨t', h1, _⟩
      · rw [hl] at hk; simp at hk
      · cases h1
    | some t =>
      rw [(hE p o ho).lost (rest_give (some t)) hl] at hk
      simp at hk
  envGive := by
    intro b b' p o v ho hs hH hE hn hb h q o' ho'
    have one := execCallbacks_one h
    by_cases hq : q = p
    · subst hq
      obtain ⟨o1, o2, es, g1, g2, g3⟩ := execCallbacks_success h
      rw [ho] at g1; simp only [Out.ok.injEq] at g1; subst g1
      have : o' = o2 := by
        rw [g3] at ho'
        have ho2 : (b.emits es).getOpt q = .ok o := by simpa using ho
        rw [getOpt_setOpt_self ho2] at ho'
        simpa using ho'.symm
      subst this
      obtain ⟨o3, g4, g5⟩ := shape_getOpt one.frame.shape ho
      rw [ho'] at g4; simp only [Out.ok.injEq] at g4; subst g4
      intro hm
      have hvt : o'.valueType = o.valueType := (congrArg Opt.valueType g5 : o'.meta.valueType = o.meta.valueType)
      have hmo : IsMapOption o o.valueType := by rw [← hvt]; exact hm.of_meta g5.symm
      exact (hE q o ho).given (later := []) (rest_env (hs.decl.map_env hmo) hn hb) rfl hH g5 g2 hm
    · rw [one.others q hq] at ho'
      exact (hE q o' ho').same one.frame.envPrefix rfl
  envLost := by
    intro b p o v ks ho hs hE hn hb hl k hk
    by_cases hm : IsMapOption o o.valueType
    · rw [(hE p o ho).lost (later := []) (rest_env (hs.decl.map_env hm) hn hb) hl] at hk
      simp at hk
    · rcases hl with hl | ⟨t', _, h1, _⟩
      · rw [hl] at hk; simp at hk
      · exact hm h1
  same := by
    intro b b' xs ht hp hE q o ho
    rw [getOpt_congr ht] at ho
    exact (hE q o ho).same hp rfl

/-! ### The end of a parse -/

theorem Argus.DifferentKeys.apart {W : World} {a : Argus} {args : List Str} {env : Env} (h : a.DifferentKeys W args env) (hp : a.Proper) :
    ∀ q o, a.getOpt q = .ok o → MapApart W env a (a.asks args) q o := by
  intro q o ho hm
  obtain ⟨ts, pss, h1, h2, h3⟩ := h q o ho hm
  obtain ⟨hd, hh, _⟩ := hm.run (W := W)
  obtain ⟨os, g1, g2⟩ := getOpt_eq_ok.1 ho
  have hc : hd.isCollection = true := by
    have := hm.splits hh
    cases hd <;> first | rfl | cases this
  obtain ⟨f1, f2, _⟩ := (hp.entries os (List.mem_of_getElem? g1) o (List.mem_of_getElem? g2)).collection hd hh hc
  refine ⟨[], pss, ts, ⟨f1.2, .inl ⟨rfl, f1.1⟩, by simp, by simp⟩, fun hx => (nomatch f2.symm.trans hx), ?_, h2, by simpa using h3⟩
  rw [← h1]
  unfold restTexts
  by_cases ht : textsOf q (a.asks args) = []
  · rw [if_pos ht, if_neg (by rintro (h | h); rw [f2] at h; cases h; exact h ht), ht]; rfl
  · rw [if_neg ht, if_pos (.inr ht), List.append_nil]

theorem Entry.holds {base : Nat → Option Blk} {h : Heap} {ho : HOpt} {o : Opt} (e : Entry base h ho o) :
    if ∃ hd, o.handler = some hd ∧ hd.isCollection = true then ho.Reads h o.value else ho.o = o ∧ ho.ptr = none := by
  cases e with
  | plain h1 _ h3 h4 _ =>
    rw [if_neg (by rintro ⟨hd, g1, g2⟩; rw [h1 hd g1] at g2; cases g2)]
    exact ⟨h3, h4⟩
  | arr hd fh k n cs H h1 h2 r h3 =>
    subst h3
    rw [if_pos ⟨hd, h1, H.coll⟩]
    exact r.reads_arr
  | map hd fh k n cs H h1 h2 r h3 =>
    subst h3
    rw [if_pos ⟨hd, h1, H.coll⟩]
    exact r.reads_map

theorem shape_lengths {a b : Argus} (h : a.shape = b.shape) : a.tables.map List.length = b.tables.map List.length := by
  have := congrArg (List.map List.length) h
  unfold Argus.shape at this
  rw [List.map_map, List.map_map] at this
  have e : ∀ x : Argus, x.tables.map (List.length ∘ List.map Opt.meta) = x.tables.map List.length := by
    intro x
    refine List.map_congr_left (fun os _ => ?_)
    simp
  exact (e a).symm.trans (this.trans (e b))

theorem Held.holds {base : Ptr → Nat → Option Blk} {B : Nat → Option Blk} {sel : List Nat} {lk : Ptr → Prop} {c : MemArgus} {a : Argus}
    (H : Held base B sel lk c a) : c.Holds a :=
  ⟨H.stack, shape_lengths H.shape, fun q o ho => by
    obtain ⟨x, h1, h2, _⟩ := H.each q o ho
    exact ⟨x, h1, h2.same_but, h2.holds⟩⟩

/-- Releasing again. -/
theorem Rel.again {D lk : Ptr → Prop} {base : Ptr → Nat → Option Blk} {B : Nat → Option Blk} {c : MemArgus} (R : Rel D lk base B c)
    {S : List (List Opt)} {root : Nat} (hS : Closed S root) {a : Argus} (hG : Good S root a) (hsh : c.a.shape = a.shape)
    (hst : c.a.stack = a.stack) (hr : c.a.root = a.root) :
    ∃ c' base', argusFreeH c = .ok c' ∧ Rel D lk base' B c' := by
  have tab : ∀ {k : Nat} {os : List Opt}, a.table (some k) = .ok os → ∃ os', c.a.table (some k) = .ok os' := by
    intro k os h
    obtain ⟨os', h1, _⟩ := SameFrame.table (c := ⟨a, c.ptr, c.heap⟩) (c' := c) ⟨hsh, hst, hr⟩ h
    exact ⟨os', h1⟩
  obtain ⟨os0, h0⟩ := hG.table (k := a.root) (by rw [hG.root]; exact hS.root)
  obtain ⟨os, h1⟩ := tab h0
  obtain ⟨c1, base1, g1, g2, g3⟩ := R.freeTable h1
  unfold argusFreeH
  rw [hr, g1, Out.ok_bind, g3.stack]
  obtain ⟨c', base', f1, f2, f3⟩ := g2.freeStack c.a.stack (fun p hp => by
    obtain ⟨o, j, k1, k2, k3, _⟩ := hG.stack p (by rw [← hst]; exact hp)
    obtain ⟨os1, k4⟩ := hG.table k3
    obtain ⟨os2, k5⟩ := tab k4
    obtain ⟨os3, k6, _⟩ := g3.table k5
    obtain ⟨o', k7, k8⟩ := shape_getOpt (g3.shape.trans hsh) k1
    exact ⟨o', j, os3, k7, (congrArg Opt.subOptions k8 : o'.meta.subOptions = o.meta.subOptions).trans k2, k6⟩)
  exact ⟨c', base', f1, f2.narrow (fun q _ _ hq => hq.1.1)⟩

/-- Success, and the release. -/
theorem parse_success (W : World) (env : Env) {A : Allocator} (hA : A.Never) {E : Argus → List Act → Prop} {P : Str → Prop}
    (T : Tracks W env E P) {a : Argus} (hp : a.Proper) (hst : a.stack = []) {args : List Str} (hT : a.TextsFit args env) {h0 : Heap}
    (hs : h0.Sound) (hE : E a (a.asks args)) {a1 : Argus} (hr : argusParse W env a args = .ok (.returned Err.success, a1)) :
    ∃ c1 c2 ks, argusParseH W A env (MemArgus.start a h0) args = .ok (.returned Err.success, c1) ∧ c1.Holds a1 ∧
      argusFreeH c1 = .ok c2 ∧ Left ks h0.live c2.heap.live ∧ (∀ k ∈ ks, P k) ∧
      ∃ c3, argusFreeH c2 = .ok c3 ∧ c3.heap.live = c2.heap.live := by
  obtain ⟨hS, _⟩ := hp.good hst
  obtain ⟨c1, ks, B, e1, e2, e3, e4, _⟩ := parse_held W env hA T hp hst hT hs hE hr
  obtain ⟨hG, base, H⟩ := e4 rfl
  obtain ⟨c2, base2, f1, f2, f3⟩ := H.free hS hG
  obtain ⟨c3, base3, g1, g2⟩ := f2.again hS hG (f3.shape.trans H.shape) (f3.stack.trans H.stack) (f3.root.trans H.root)
  refine ⟨c1, c2, ks, e1, H.holds, f1, by rw [f2.nothing]; exact e2, e3, c3, g1, by rw [f2.nothing, g2.nothing]⟩

/-- The end of the process. -/
theorem parse_exited (W : World) (env : Env) {A : Allocator} (hA : A.Never) {E : Argus → List Act → Prop} {P : Str → Prop}
    (T : Tracks W env E P) {a : Argus} (hp : a.Proper) (hst : a.stack = []) {args : List Str} (hT : a.TextsFit args env) {h0 : Heap}
    (hs : h0.Sound) (hE : E a (a.asks args)) {a1 : Argus} (hr : argusParse W env a args = .ok (.exited, a1)) :
    ∃ c1 ks, argusParseH W A env (MemArgus.start a h0) args = .ok (.exited, c1) ∧ Left ks h0.live c1.heap.live ∧ ∀ k ∈ ks, P k := by
  obtain ⟨c1, ks, B, e1, e2, e3, _, e4⟩ := parse_held W env hA T hp hst hT hs hE hr
  obtain ⟨base, leak, R, hl⟩ := e4 (by simp)
  refine ⟨c1, ks, e1, ?_, e3⟩
  have := hl rfl
  subst this
  have R' : Rel (fun _ => False) (fun _ => False) base B c1 :=
    ⟨R.each, fun p x hx hy => (R.kept p x hx hy).imp id (fun h => by cases h), R.absent, R.shares⟩
  rw [R'.nothing]
  exact e2

/-- An error. -/
theorem parse_failed (W : World) (env : Env) {A : Allocator} (hA : A.Never) {E : Argus → List Act → Prop} {P : Str → Prop}
    (T : Tracks W env E P) {a : Argus} (hp : a.Proper) (hst : a.stack = []) {args : List Str} (hT : a.TextsFit args env) {h0 : Heap}
    (hs : h0.Sound) (hE : E a (a.asks args)) {e : Int} (he : e ≠ Err.success) {a1 : Argus}
    (hr : argusParse W env a args = .ok (.returned e, a1)) :
    ∃ c1 ks, argusParseH W A env (MemArgus.start a h0) args = .ok (.returned e, c1) ∧ (∀ k ∈ ks, P k) ∧
      (Left ks h0.live c1.heap.live ∨ ∃ q ho fh h1, c1.opt q = .ok ho ∧ ho.ptr ≠ none ∧ ho.o.freeHandler = some fh ∧
        runFreeH (some fh) ho c1.heap = .ok h1 ∧ Left ks h0.live h1.live) := by
  obtain ⟨c1, ks, B, e1, e2, e3, _, e4⟩ := parse_held W env hA T hp hst hT hs hE hr
  obtain ⟨base, leak, R, hl⟩ := e4 (by simpa using he)
  refine ⟨c1, ks, e1, e3, ?_⟩
  rcases R.end with h | ⟨q, ho, fh, h', _, g1, g2, g3, g4, g5⟩
  · left; rw [h]; exact e2
  · right; exact ⟨q, ho, fh, h', g1, g2, g3, g4, by rw [g5]; exact e2⟩

end Argus
