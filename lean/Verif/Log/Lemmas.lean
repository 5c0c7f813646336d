import Verif.CChr
import Verif.Sc.Lemmas
import Verif.Log.Model

/-! # Lemmas about the logger -/

namespace Verif.Log

open Spec

/-! ## Levels -/

theorem tolowerChar_ascii {c : UInt8} (h : c < 128) : tolowerChar c = .ok (toLower c).toNat := by
  unfold tolowerChar; rw [if_pos h]

theorem toLower_zero {c : UInt8} (h : toLower c = 0) : c = 0 := by
  unfold toLower at h
  split at h <;> grind

/-- Comparing two ASCII strings without case. -/
theorem strcasecmpLoop_eq {a b : List UInt8} : ∀ {s t : List UInt8} {i fuel : Nat}, CStr a i s → CStr b i t →
    (∀ c ∈ s, c < 128) → (∀ c ∈ t, c < 128) → s.length < fuel →
    ∃ r, strcasecmpLoop a b fuel i = .ok r ∧ (r = 0 ↔ SameLetters s t) := by
  intro s
  induction s with
  | nil =>
    intro t i fuel ha hb _ h2 hf
    obtain ⟨fuel, rfl⟩ : ∃ k, fuel = k + 1 := ⟨fuel - 1, by omega⟩
    unfold strcasecmpLoop
    have ra : rd a i = .ok 0 := ha.rd0
    rw [ra, Res.ok_bind, hb.rd0, Res.ok_bind]
    cases t with
    | nil => rw [if_pos (by simp)]; exact ⟨0, rfl, by simp [SameLetters]⟩
    | cons d t =>
      have hd : d ≠ 0 := hb.nonzero d (by simp)
      rw [if_neg (by simp [hd])]
      simp only [List.head?_cons, Option.getD_some]
      rw [tolowerChar_ascii (by decide), Res.ok_bind, tolowerChar_ascii (h2 d (by simp)), Res.ok_bind]
      have h0 : (toLower d).toNat ≠ 0 := by
        intro e
        exact hd (toLower_zero (UInt8.toNat_inj.1 e))
      have h00 : (toLower 0).toNat = 0 := rfl
      rw [if_pos (by rw [h00]; omega)]
      exact ⟨_, rfl, by rw [h00]; simp [SameLetters]; omega⟩
  | cons c s ih =>
    intro t i fuel ha hb h1 h2 hf
    obtain ⟨fuel, rfl⟩ : ∃ k, fuel = k + 1 := ⟨fuel - 1, by omega⟩
    have hc : c ≠ 0 := ha.nonzero c (by simp)
    have ra : rd a i = .ok c := ha.rd0
    unfold strcasecmpLoop
    rw [ra, Res.ok_bind, hb.rd0, Res.ok_bind, if_neg (by simp [hc]), tolowerChar_ascii (h1 c (by simp)), Res.ok_bind]
    have hc0 : (toLower c).toNat ≠ 0 := by
      intro e
      exact hc (toLower_zero (UInt8.toNat_inj.1 e))
    cases t with
    | nil =>
      simp only [List.head?_nil, Option.getD_none]
      rw [tolowerChar_ascii (by decide), Res.ok_bind]
      have h00 : (toLower 0).toNat = 0 := rfl
      rw [if_pos (by rw [h00]; omega)]
      exact ⟨_, rfl, by rw [h00]; simp [SameLetters]; omega⟩
    | cons d t =>
      simp only [List.head?_cons, Option.getD_some]
      rw [tolowerChar_ascii (h2 d (by simp)), Res.ok_bind]
      by_cases he : toLower c = toLower d
      · rw [if_neg (by rw [he]; omega)]
        obtain ⟨r, e, hr⟩ := ih (i := i + 1) (t := t) (fuel := fuel) (ha.suffix (a := [c])) (hb.suffix (a := [d]))
          (fun x hx => h1 x (by simp [hx])) (fun x hx => h2 x (by simp [hx])) (by simp at hf; omega)
        exact ⟨r, e, by rw [hr]; simp [SameLetters, he]⟩
      · have hne : (toLower c).toNat ≠ (toLower d).toNat := fun e => he (UInt8.toNat_inj.1 e)
        rw [if_pos (by omega)]
        exact ⟨_, rfl, by simp [SameLetters, he]; omega⟩

theorem strcasecmp_eq {a b s t : List UInt8} (ha : CStr a 0 s) (hb : CStr b 0 t)
    (h1 : ∀ c ∈ s, c < 128) (h2 : ∀ c ∈ t, c < 128) :
    ∃ r, strcasecmp a b = .ok r ∧ (r = 0 ↔ SameLetters s t) :=
  strcasecmpLoop_eq ha hb h1 h2 (by have := ha.lt; omega)

theorem levels_eq : levels = [Level.debug, .info, .warn, .error, .off].map fun l => (l, l.name ++ [0]) := rfl

theorem level_name (l : Level) : CStr (l.name ++ [0]) 0 l.name ∧ ∀ c ∈ l.name, c < 128 := by
  refine ⟨CStr.self ?_, ?_⟩ <;> cases l <;> simp [Level.name] <;> decide

theorem setLevelLoop_eq {level : Level} {str s : List UInt8} (h : CStr str 0 s) (ha : ∀ c ∈ s, c < 128) :
    ∀ ls : List Level, ∃ l rc, setLevelLoop level str (ls.map fun l => (l, l.name ++ [0])) = .ok (l, rc) ∧
      (rc = 0 ∧ l ∈ ls ∧ SameLetters s l.name ∨ rc = -1 ∧ l = level ∧ ∀ x ∈ ls, ¬ SameLetters s x.name) := by
  intro ls
  induction ls with
  | nil => exact ⟨level, -1, rfl, Or.inr ⟨rfl, rfl, by simp⟩⟩
  | cons x ls ih =>
    obtain ⟨hn, ha'⟩ := level_name x
    obtain ⟨r, e, hr⟩ := strcasecmp_eq h hn ha ha'
    rw [List.map_cons, setLevelLoop, e, Res.ok_bind]
    by_cases h0 : r = 0
    · rw [if_pos h0]
      exact ⟨x, 0, rfl, Or.inl ⟨rfl, by simp, hr.1 h0⟩⟩
    · rw [if_neg h0]
      obtain ⟨l, rc, e, hl⟩ := ih
      refine ⟨l, rc, e, ?_⟩
      rcases hl with ⟨h1, h2, h3⟩ | ⟨h1, h2, h3⟩
      · exact Or.inl ⟨h1, by simp [h2], h3⟩
      · refine Or.inr ⟨h1, h2, ?_⟩
        intro y hy
        rcases List.mem_cons.1 hy with rfl | hy
        · exact fun hs => h0 (hr.2 hs)
        · exact h3 y hy

/-! ## Names of threads -/

/-- An array of `n + 1` bytes that holds a string. -/
structure Arr (arr : List UInt8) (n : Nat) (s : List UInt8) : Prop where
  len : arr.length = n + 1
  str : CStr arr 0 s

theorem setName_eq {name old str s : List UInt8} (hn : Arr name 31 old) (hl : name[31]? = some 0)
    (h : CStr str 0 s) : ∃ name', setName name str = .ok name' ∧ Arr name' 31 (s.take 31) ∧ name'[31]? = some 0 := by
  obtain ⟨hlen, -⟩ := hn
  unfold setName Ini.strncpy
  rw [cstr_eq h, Res.ok_bind]
  generalize hn : 31 = n at *
  have hol : (s.take n ++ List.replicate (n - s.length) 0).length = n := by
    rw [List.length_append, List.length_take, List.length_replicate]; omega
  simp only
  rw [if_pos (by omega)]
  have key : ∀ i, (splice name 0 (s.take n ++ List.replicate (n - s.length) 0))[i]? =
      if i < n then (s.take n ++ List.replicate (n - s.length) 0)[i]? else name[i]? := by
    intro i
    rw [splice_getElem? (by omega), hol]
    grind
  refine ⟨_, rfl, ⟨by rw [length_splice (by omega)]; exact hlen, ?_, ?_, ?_⟩, ?_⟩
  · intro i hi
    have : i < n ∧ i < s.length := by simp at hi; omega
    rw [Nat.zero_add, key, if_pos this.1, List.getElem?_append_left (by simp; omega)]
    exact (List.getElem?_eq_getElem hi)
  · exact fun c hc => h.nonzero c (List.mem_of_mem_take hc)
  · rw [Nat.zero_add, key, List.length_take]
    by_cases hs : s.length < n
    · rw [if_pos (by omega), List.getElem?_append_right (by rw [List.length_take]; omega), List.length_take]
      rw [List.getElem?_replicate, if_pos (by omega)]
    · rw [if_neg (by omega), Nat.min_eq_left (by omega)]
      exact hl
  · rw [key, if_neg (by omega)]; exact hl

/-! ## Headers -/

theorem two_spec (n : Nat) : Two (two n) n := ⟨dec n, Sc.isDec_dec n, rfl⟩

theorem header_spec (tm : Tm) (l : Level) (name : List UInt8) : Header tm l name (header tm l name) :=
  ⟨_, _, _, _, _, _, Sc.isDec_dec _, two_spec _, two_spec _, two_spec _, two_spec _, two_spec _, rfl⟩

/-! ## Critical sections from their beginning to their end -/

/-- Steps of a critical section, all before it is done. -/
def exec (name : List UInt8) (op : Op) : Loc → List Out → Shared → Res (Loc × Shared)
  | loc, [], s => .ok (loc, s)
  | loc, o :: outs, s =>
    if loc.pc = .unlock then .ub
    else do
      let (loc, s) ← step name op loc o s
      exec name op loc outs s

theorem exec_snoc {name : List UInt8} {op : Op} {o : Out} : ∀ {outs : List Out} {loc loc1 loc2 : Loc} {s s1 s2 : Shared},
    exec name op loc outs s = .ok (loc1, s1) → loc1.pc ≠ .unlock → step name op loc1 o s1 = .ok (loc2, s2) →
    exec name op loc (outs ++ [o]) s = .ok (loc2, s2) := by
  intro outs
  induction outs with
  | nil =>
    intro loc loc1 loc2 s s1 s2 h hu hs
    cases h
    simp only [List.nil_append, exec]
    rw [if_neg hu, hs]
    rfl
  | cons x outs ih =>
    intro loc loc1 loc2 s s1 s2 h hu hs
    simp only [exec, List.cons_append] at h ⊢
    split at h
    · cases h
    · next hc =>
      rw [if_neg hc]
      obtain ⟨⟨loc', s'⟩, e, h⟩ := Res.bind_eq_ok.1 h
      rw [e]
      exact ih h hu hs

theorem exec_cons {name : List UInt8} {op : Op} {outs : List Out} {loc loc2 : Loc} {s s2 : Shared}
    (h : exec name op loc outs s = .ok (loc2, s2)) (hp : loc.pc ≠ .unlock) (hd : loc2.pc = .unlock) :
    ∃ o rest loc1 s1, outs = o :: rest ∧ step name op loc o s = .ok (loc1, s1) ∧
      exec name op loc1 rest s1 = .ok (loc2, s2) := by
  cases outs with
  | nil => cases h; exact absurd hd hp
  | cons o rest =>
    simp only [exec] at h
    rw [if_neg hp] at h
    obtain ⟨⟨loc', s'⟩, e, h⟩ := Res.bind_eq_ok.1 h
    exact ⟨o, rest, loc', s', rfl, e, h⟩

theorem exec_end {name : List UInt8} {op : Op} {outs : List Out} {loc loc2 : Loc} {s s2 : Shared}
    (h : exec name op loc outs s = .ok (loc2, s2)) (hp : loc.pc = .unlock) : outs = [] ∧ loc2 = loc ∧ s2 = s := by
  cases outs with
  | nil => cases h; exact ⟨rfl, rfl, rfl⟩
  | cons o rest => simp only [exec] at h; rw [if_pos hp] at h; cases h

/-- All calls succeed. -/
def Good (outs : List Out) : Prop := ∀ o ∈ outs, o.ok = true ∧ o.tm ≠ none

theorem emit_emit (s : Shared) (l : Level) (a b : List UInt8) : (s.emit l a).emit l b = s.emit l (a ++ b) := by
  unfold Shared.emit
  split <;> simp

theorem append_append (s : Shared) (p a b : List UInt8) : (s.append p a).append p b = s.append p (a ++ b) := by
  unfold Shared.append Shared.file
  simp only [if_true, Option.getD_some, List.append_assoc]
  congr 1
  funext q
  split <;> rfl

/-- What becomes of the standard streams; `w` says whether writing succeeded. -/
inductive OutPhase (nm : List UInt8) (l : Level) (msg : List UInt8) (s : Shared) : Shared → Bool → Prop
  | off : s.toStdout = false → OutPhase nm l msg s s true
  | line {tm h} : s.toStdout = true → Header tm l nm h → OutPhase nm l msg s (s.emit l (h ++ msg)) true
  | noTime : s.toStdout = true → OutPhase nm l msg s s false
  | cut {tm h p} : s.toStdout = true → Header tm l nm h → p <+: h ++ msg →
      OutPhase nm l msg s (s.emit l p) false

/-- The files after a rotation of a file that holds `c`; `r` says whether it was renamed and `w` whether
it was opened anew. -/
def rotFs (r w : Bool) (cp pp : List UInt8) (fs : List UInt8 → Option (List UInt8)) (c : List UInt8) :
    List UInt8 → Option (List UInt8) := fun p =>
  if p = cp then (if w then some [] else if r = true ∧ cp ≠ pp then none else some c)
  else if p = pp ∧ r = true then some c else fs p

/-- What becomes of the file; `r` says whether renaming and `w` whether the rest succeeded. -/
inductive FilePhase (nm cp pp : List UInt8) (l : Level) (msg : List UInt8) (s : Shared) :
    Shared → Bool → Bool → Prop
  | off : s.fp = false → FilePhase nm cp pp l msg s s true true
  | noTime : s.fp = true → FilePhase nm cp pp l msg s s true false
  | cut {tm h p} : s.fp = true → Header tm l nm h → p <+: h ++ msg →
      FilePhase nm cp pp l msg s (s.append cp p) true false
  | line {tm h} : s.fp = true → Header tm l nm h → add64 s.size msg.length ≤ LIMIT →
      FilePhase nm cp pp l msg s { s.append cp (h ++ msg) with size := add64 s.size msg.length } true true
  | rotated {tm h} {r w : Bool} : s.fp = true → Header tm l nm h → add64 s.size msg.length > LIMIT →
      FilePhase nm cp pp l msg s
        { s with
          fp := w
          size := if w then 0 else add64 s.size msg.length
          streams := if w then s.streams - 1 + 1 else s.streams - 1
          fs := rotFs r w cp pp s.fs ((s.fs cp).getD [] ++ (h ++ msg)) } r w

theorem or_neg (x : Int32) : x ||| -1 = -1 := by
  have h : (-1 : Int32) = ~~~0 := by decide
  rw [h]
  apply Int32.toBitVec_inj.1
  simp

theorem emit_frame (s : Shared) (l : Level) (b : List UInt8) : (s.emit l b).fp = s.fp ∧ (s.emit l b).cur = s.cur ∧
    (s.emit l b).prev = s.prev ∧ (s.emit l b).size = s.size ∧ (s.emit l b).toStdout = s.toStdout ∧
    (s.emit l b).cb = s.cb ∧ (s.emit l b).fs = s.fs ∧ (s.emit l b).calls = s.calls ∧
    (s.emit l b).streams = s.streams := by
  unfold Shared.emit
  split <;> simp

theorem prefix_take (a b : List UInt8) (n : Nat) : a.take n <+: a ++ b :=
  (List.take_prefix n a).trans (List.prefix_append a b)

theorem out_phase {name nm msg : List UInt8} {l : Level} {outs : List Out} {loc loc2 : Loc} {s s2 : Shared}
    (hn : CStr name 0 nm) (h : exec name (.log l msg) loc outs s = .ok (loc2, s2)) (hp : loc.pc = .out1)
    (hd : loc2.pc = .unlock) :
    ∃ s1 w loc1 rest, OutPhase nm l msg s s1 w ∧ loc1.pc = .file1 ∧ loc1.rc = (if w then loc.rc else -1) ∧
      exec name (.log l msg) loc1 rest s1 = .ok (loc2, s2) ∧ (Good outs → w = true ∧ Good rest) := by
  obtain ⟨o, rest, loc1, s1, rfl, h1, h⟩ := exec_cons h (by rw [hp]; decide) hd
  have h1 : stepLog name l msg loc o s = .ok (loc1, s1) := h1
  unfold stepLog at h1
  rw [hp] at h1
  simp only at h1
  have gr : Good (o :: rest) → Good rest := fun hg x hx => hg x (by simp [hx])
  by_cases hs : s.toStdout = true
  · rw [if_pos hs] at h1
    cases ht : o.tm with
    | none =>
      rw [ht] at h1
      cases h1
      exact ⟨_, false, _, rest, .noTime hs, rfl, or_neg _, h, fun hg => absurd ht (hg o (by simp)).2⟩
    | some tm =>
      rw [ht] at h1
      simp only at h1
      rw [cstr_eq hn, Res.ok_bind] at h1
      cases h1
      have hh := header_spec tm l nm
      cases ho : o.ok with
      | false =>
        rw [ho] at h
        unfold Out.put at h
        rw [ho] at h
        exact ⟨_, false, _, rest, .cut hs hh (prefix_take _ msg o.n), rfl, or_neg _, h,
          fun hg => by have := (hg o (by simp)).1; rw [ho] at this; cases this⟩
      | true =>
        rw [ho] at h
        unfold Out.put at h
        rw [ho] at h
        simp only [if_true] at h
        obtain ⟨o', rest', loc', s', rfl, h2, h⟩ := exec_cons h (by simp) hd
        cases h2
        cases ho' : o'.ok with
        | false =>
          rw [ho'] at h
          unfold Out.put at h
          rw [ho', emit_emit] at h
          refine ⟨_, false, _, rest', .cut hs hh ?_, rfl, or_neg _, h,
            fun hg => by have := (hg o' (by simp)).1; rw [ho'] at this; cases this⟩
          exact (List.prefix_append_right_inj _).2 (List.take_prefix o'.n msg)
        | true =>
          rw [ho'] at h
          unfold Out.put at h
          rw [ho', emit_emit] at h
          exact ⟨_, true, { loc with pc := .file1 }, rest', .line hs hh, rfl, rfl, h, fun hg => ⟨rfl, fun x hx => hg x (by simp [hx])⟩⟩
  · rw [if_neg hs] at h1
    cases h1
    exact ⟨_, true, { loc with pc := .file1 }, rest, .off (by simpa using hs), rfl, rfl, h, fun hg => ⟨rfl, gr hg⟩⟩

theorem append_frame (s : Shared) (p b : List UInt8) : (s.append p b).fp = s.fp ∧ (s.append p b).cur = s.cur ∧
    (s.append p b).prev = s.prev ∧ (s.append p b).size = s.size ∧ (s.append p b).streams = s.streams :=
  ⟨rfl, rfl, rfl, rfl, rfl⟩

theorem rot_fail {s : Shared} {cp pp c : List UInt8} (r : Bool) (hc : s.fs cp = some c) :
    (if r = true ∧ cp ≠ pp then (s.file pp (s.fs cp)).file cp none else s) =
      { s with fs := rotFs r false cp pp s.fs c } := by
  by_cases hr : r = true ∧ cp ≠ pp
  · rw [if_pos hr]
    simp only [Shared.file]
    congr 1
    funext p
    simp only [rotFs, hc]
    by_cases h1 : p = cp
    · simp [h1, hr.1, hr.2]
    · by_cases h2 : p = pp
      · subst h2; simp [h1, hr.1]
      · simp [h1, h2]
  · rw [if_neg hr]
    have : rotFs r false cp pp s.fs c = s.fs := by
      funext p
      simp only [rotFs]
      by_cases h1 : p = cp
      · simp [h1, hr, hc]
      · by_cases h2 : p = pp
        · have : r = false := by
            cases r with
            | false => rfl
            | true => exact absurd ⟨rfl, fun e => h1 (h2.trans e.symm)⟩ hr
          simp [h1, this]
        · simp [h1, h2]
    rw [this]

theorem rot_phase {name msg cp pp c : List UInt8} {l : Level} {outs : List Out} {loc loc2 : Loc} {s s2 : Shared}
    (hc : CStr s.cur 0 cp) (hv : CStr s.prev 0 pp) (hf : s.fs cp = some c)
    (h : exec name (.log l msg) loc outs s = .ok (loc2, s2)) (hp : loc.pc = .rotClose) (hd : loc2.pc = .unlock) :
    ∃ (r w : Bool) (loc1 : Loc) (rest : List Out), loc1.pc = .callback ∧ loc1.rc = (if w then loc.rc else -1) ∧
      exec name (.log l msg) loc1 rest
        { s with
          fp := w
          size := if w then 0 else s.size
          streams := if w then s.streams - 1 + 1 else s.streams - 1
          fs := rotFs r w cp pp s.fs c } = .ok (loc2, s2) ∧
      (Good outs → r = true ∧ w = true ∧ Good rest) := by
  obtain ⟨o3, rest3, loc3, s3, rfl, h3, h⟩ := exec_cons h (by rw [hp]; decide) hd
  have h3 : stepLog name l msg loc o3 s = .ok (loc3, s3) := h3
  unfold stepLog at h3
  rw [hp] at h3
  obtain ⟨rfl, rfl⟩ := Prod.mk.inj (Res.ok.inj h3)
  obtain ⟨o4, rest4, loc4, s4, rfl, h4, h⟩ := exec_cons h (by simp) hd
  simp only [step, stepLog, cstr_eq hc, cstr_eq hv, Res.ok_bind] at h4
  obtain ⟨rfl, rfl⟩ := Prod.mk.inj (Res.ok.inj h4)
  rw [rot_fail (c := c) o4.ok (by exact hf)] at h
  obtain ⟨o5, rest5, loc5, s5, rfl, h5, h⟩ := exec_cons h (by simp) hd
  simp only [step, stepLog, cstr_eq hc, Res.ok_bind] at h5
  cases ho5 : o5.ok with
  | true =>
    rw [ho5, if_pos rfl] at h5
    obtain ⟨rfl, rfl⟩ := Prod.mk.inj (Res.ok.inj h5)
    refine ⟨o4.ok, true, { loc with pc := .callback }, rest5, rfl, rfl, ?_,
      fun hg => ⟨(hg o4 (by simp)).1, rfl, fun x hx => hg x (by simp [hx])⟩⟩
    have e : (fun p => if p = cp then some [] else rotFs o4.ok false cp pp s.fs c p) =
        rotFs o4.ok true cp pp s.fs c := by
      funext p
      simp only [rotFs]
      by_cases h1 : p = cp <;> simp [h1]
    simp only [Shared.file] at h
    rw [e] at h
    exact h
  | false =>
    rw [ho5, if_neg (by simp)] at h5
    obtain ⟨rfl, rfl⟩ := Prod.mk.inj (Res.ok.inj h5)
    exact ⟨o4.ok, false, _, rest5, rfl, or_neg _, h,
      fun hg => by have := (hg o5 (by simp)).1; rw [ho5] at this; cases this⟩

theorem rotFs_append (r w : Bool) (s : Shared) (cp pp b c : List UInt8) :
    rotFs r w cp pp (s.append cp b).fs c = rotFs r w cp pp s.fs c := by
  funext p
  simp only [rotFs, Shared.append, Shared.file]
  by_cases h1 : p = cp <;> simp [h1]

theorem file_phase {name nm msg cp pp : List UInt8} {l : Level} {outs : List Out} {loc loc2 : Loc} {s s2 : Shared}
    (hn : CStr name 0 nm) (hc : CStr s.cur 0 cp) (hv : CStr s.prev 0 pp)
    (h : exec name (.log l msg) loc outs s = .ok (loc2, s2)) (hp : loc.pc = .file1) (hd : loc2.pc = .unlock) :
    ∃ s1 r w loc1 rest, FilePhase nm cp pp l msg s s1 r w ∧ loc1.pc = .callback ∧
      loc1.rc = (if w then loc.rc else -1) ∧ exec name (.log l msg) loc1 rest s1 = .ok (loc2, s2) ∧
      (Good outs → r = true ∧ w = true ∧ Good rest) := by
  obtain ⟨o, rest, loc1, s1, rfl, h1, h⟩ := exec_cons h (by rw [hp]; decide) hd
  have h1 : stepLog name l msg loc o s = .ok (loc1, s1) := h1
  unfold stepLog at h1
  rw [hp] at h1
  simp only at h1
  have gr : Good (o :: rest) → Good rest := fun hg x hx => hg x (by simp [hx])
  by_cases hs : s.fp = true
  · rw [if_pos hs] at h1
    cases ht : o.tm with
    | none =>
      rw [ht] at h1
      cases h1
      exact ⟨_, true, false, _, rest, .noTime hs, rfl, or_neg _, h, fun hg => absurd ht (hg o (by simp)).2⟩
    | some tm =>
      rw [ht] at h1
      simp only at h1
      rw [cstr_eq hn, Res.ok_bind, cstr_eq hc, Res.ok_bind] at h1
      cases h1
      have hh := header_spec tm l nm
      cases ho : o.ok with
      | false =>
        rw [ho] at h
        unfold Out.put at h
        rw [ho] at h
        exact ⟨_, true, false, _, rest, .cut hs hh (prefix_take _ msg o.n), rfl, or_neg _, h,
          fun hg => by have := (hg o (by simp)).1; rw [ho] at this; cases this⟩
      | true =>
        rw [ho] at h
        unfold Out.put at h
        rw [ho] at h
        simp only [if_true] at h
        obtain ⟨o', rest', loc', s', rfl, h2, h⟩ := exec_cons h (by simp) hd
        have hc' : CStr (s.append cp (header tm l nm)).cur 0 cp := hc
        simp only [step, stepLog, cstr_eq hc', Res.ok_bind, append_append] at h2
        cases ho' : o'.ok with
        | false =>
          rw [ho', if_neg (by simp)] at h2
          cases h2
          unfold Out.put at h
          rw [ho'] at h
          refine ⟨_, true, false, _, rest', .cut hs hh ?_, rfl, or_neg _, h,
            fun hg => by have := (hg o' (by simp)).1; rw [ho'] at this; cases this⟩
          exact (List.prefix_append_right_inj _).2 (List.take_prefix o'.n msg)
        | true =>
          rw [ho', if_pos rfl] at h2
          cases h2
          unfold Out.put at h
          rw [ho'] at h
          simp only [if_true] at h
          by_cases hl : add64 s.size msg.length > LIMIT
          · have hl' : add64 (s.append cp (header tm l nm ++ msg)).size msg.length > LIMIT := hl
            rw [if_pos hl'] at h
            have hfs : (s.append cp (header tm l nm ++ msg)).fs cp =
                some ((s.fs cp).getD [] ++ (header tm l nm ++ msg)) := by simp [Shared.append, Shared.file]
            obtain ⟨r, w, loc1, rest1, h1, h2, h3, h4⟩ := rot_phase (by exact hc) (by exact hv) (by exact hfs) h rfl hd
            simp only [rotFs_append] at h3
            exact ⟨_, r, w, loc1, rest1, .rotated hs hh hl, h1, h2, h3, fun hg => h4 fun x hx => hg x (by simp [hx])⟩
          · have hl' : ¬ add64 (s.append cp (header tm l nm ++ msg)).size msg.length > LIMIT := hl
            rw [if_neg hl'] at h
            exact ⟨_, true, true, { loc with pc := .callback }, rest', .line hs hh (by omega), rfl, rfl, h, fun hg => ⟨rfl, rfl, fun x hx => hg x (by simp [hx])⟩⟩
  · rw [if_neg hs] at h1
    cases h1
    exact ⟨_, true, true, { loc with pc := .callback }, rest, .off (by simpa using hs), rfl, rfl, h, fun hg => ⟨rfl, rfl, gr hg⟩⟩

theorem callback_phase {name msg : List UInt8} {l : Level} {outs : List Out} {loc loc2 : Loc} {s s2 : Shared}
    (h : exec name (.log l msg) loc outs s = .ok (loc2, s2)) (hp : loc.pc = .callback) (hd : loc2.pc = .unlock) :
    ∃ o, outs = [o] ∧ s2 = { s with calls := s.calls ++ s.cb.toList.map fun f => (f, l, msg) } ∧
      loc2.rc = if s.cb = none then loc.rc else loc.rc ||| o.rc := by
  obtain ⟨o, rest, loc1, s1, rfl, h1, h⟩ := exec_cons h (by rw [hp]; decide) hd
  have h1 : stepLog name l msg loc o s = .ok (loc1, s1) := h1
  unfold stepLog at h1
  rw [hp] at h1
  simp only at h1
  cases hcb : s.cb with
  | none =>
    rw [hcb] at h1
    cases h1
    obtain ⟨rfl, rfl, rfl⟩ := exec_end h rfl
    refine ⟨o, rfl, ?_, by simp⟩
    cases s2
    simp at hcb ⊢
    exact hcb
  | some f =>
    rw [hcb] at h1
    cases h1
    obtain ⟨rfl, rfl, rfl⟩ := exec_end h rfl
    exact ⟨o, rfl, by simp, by simp⟩

end Verif.Log
