import Verif.Memory.Store

/-! # Programs that keep the rules of the API

`Kind.Rules`: under some rules every call has an outcome. Then a program that keeps the rules
runs on memory without doing anything undefined, and the memory stays tidy. -/

namespace Verif.Memory

/-- The rules of an API: which arguments an object may be made with, and which calls are
allowed, given what the object holds. -/
structure Rules (k : Kind) where
  arg : k.Arg → Prop
  op : k.View → k.Op → Prop

/-- An action keeps the rules. -/
def Rules.act {k : Kind} (r : Rules k) (vs : Nat → Option k.View) : Act k → Prop
  | .create n a => vs n = none → r.arg a
  | .call n op => ∀ v, vs n = some v → r.op v op
  | .destroy _ => True

/-- Every action of a program keeps the rules, in the state the actions before lead to. -/
def Rules.Keeps {k : Kind} (r : Rules k) : (Nat → Option k.View) → List (Act k) → Prop
  | _, [] => True
  | vs, a :: as => r.act vs a ∧ ∀ vs' s, Verif.Memory.act k vs a = .ok (vs', s) → r.Keeps vs' as

/-- Under the rules every call has an outcome. `I` holds of all objects. -/
structure Rules.Enough {k : Kind} (r : Rules k) (I : k.View → Prop) : Prop where
  init : ∀ a, r.arg a → ∃ v, k.init a = .ok v ∧ ∀ x, v = some x → I x
  step : ∀ v op, I v → r.op v op → ∃ v' out, k.step v op = .ok (v', out) ∧ I v'

theorem upd_all {I : α → Prop} {f : Nat → Option α} {n : Nat} {x : Option α}
    (h : ∀ m v, f m = some v → I v) (hx : ∀ v, x = some v → I v) :
    ∀ m v, upd f n x m = some v → I v := by
  intro m v hv
  simp only [upd] at hv
  split at hv
  · exact hx v hv
  · exact h m v hv

theorem Rules.act_ok {k : Kind} {r : Rules k} {I : k.View → Prop} (he : r.Enough I)
    {vs : Nat → Option k.View} (hI : ∀ n v, vs n = some v → I v) {a : Act k} (h : r.act vs a) :
    ∃ vs' s, Verif.Memory.act k vs a = .ok (vs', s) ∧ ∀ n v, vs' n = some v → I v := by
  cases a with
  | create n a =>
    cases hn : vs n with
    | some v => exact ⟨vs, .nothing, by simp only [Verif.Memory.act, hn], hI⟩
    | none =>
      obtain ⟨v, hv, hx⟩ := he.init a (h hn)
      exact ⟨upd vs n v, _, by simp only [Verif.Memory.act, hn, hv, Res.ok_bind]; rfl, upd_all hI hx⟩
  | call n op =>
    cases hn : vs n with
    | none => exact ⟨vs, .nothing, by simp only [Verif.Memory.act, hn], hI⟩
    | some v =>
      obtain ⟨v', out, hv, hx⟩ := he.step v op (hI n v hn) (h v hn)
      exact ⟨upd vs n (some v'), .result out, by simp only [Verif.Memory.act, hn, hv, Res.ok_bind],
        upd_all hI (fun w hw => by cases hw; exact hx)⟩
  | destroy n =>
    cases hn : vs n with
    | none => exact ⟨vs, .nothing, by simp only [Verif.Memory.act, hn], hI⟩
    | some v =>
      exact ⟨upd vs n none, .nothing, by simp only [Verif.Memory.act, hn], upd_all hI (fun w hw => by cases hw)⟩

theorem Rules.run_ok {k : Kind} {r : Rules k} {I : k.View → Prop} (he : r.Enough I)
    (as : List (Act k)) : ∀ {vs : Nat → Option k.View}, (∀ n v, vs n = some v → I v) →
    r.Keeps vs as → ∃ vs' ss, run k vs as = .ok (vs', ss) ∧ ∀ n v, vs' n = some v → I v := by
  induction as with
  | nil => intro vs hI _; exact ⟨vs, [], rfl, hI⟩
  | cons a as ih =>
    intro vs hI h
    obtain ⟨vs1, s, h1, hI1⟩ := Rules.act_ok he hI h.1
    obtain ⟨vs2, ss, h2, hI2⟩ := ih hI1 (h.2 _ _ h1)
    exact ⟨vs2, s :: ss, by simp only [run, h1, h2, Res.ok_bind], hI2⟩

/-- The program `as` does nothing undefined on memory; what it sees is what it sees in the model
without memory; all the time every block in memory belongs to exactly one existing object whose
pointer leads to it; and when all objects are destroyed no block is left. -/
def RunsTidily (k : Kind) (as : List (Act k)) : Prop :=
  ∃ w ss vs, (World.start k).run k as = .ok (w, ss) ∧ run k (fun _ => none) as = .ok (vs, ss) ∧
    w.Tidy k ∧ w.Matches k vs ∧ ((∀ n, w.objs n = none) → ∀ i, w.st.blk i = none)

theorem Rules.runs_tidily {k : Kind} (hk : k.Sound) {r : Rules k} {I : k.View → Prop}
    (he : r.Enough I) {as : List (Act k)} (h : r.Keeps (fun _ => none) as) :
    RunsTidily k as := by
  obtain ⟨vs, ss, h1, _⟩ := Rules.run_ok he as (fun _ _ hv => by cases hv) h
  obtain ⟨w, hw, ht, hm⟩ := history_ok hk h1
  exact ⟨w, ss, vs, hw, h1, ht, hm, fun hn => ht.no_leak hn⟩

end Verif.Memory
