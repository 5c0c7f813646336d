import Verif.Poll.WinProps

/-!
# The array of operations of the Windows poller

Operations are kept in an array that has room for `opsCap` of them. The model keeps the list of the
operations in use; here it is shown that the list always fits in the array, so that no operation is
written behind the end of it.
-/

namespace Verif.Poll.Win

/-- The operations in use have room in the array; an array that was allocated has 16 places or more. -/
structure Fits (p : P) : Prop where
  le : p.ops.length ≤ p.opsCap
  some : p.opsCap = 0 ∨ 16 ≤ p.opsCap

theorem Fits.congr {p q : P} (h : Fits p) (h1 : q.ops = p.ops) (h2 : q.opsCap = p.opsCap) : Fits q :=
  ⟨by rw [h1, h2]; exact h.le, by rw [h2]; exact h.some⟩

/-- A place for an operation is inside the array. -/
theorem opSlot_fits (e : Env) (f : Fdt) (p : P) (h : Fits p) : ∃ r, opSlot e f p = r ∧ Fits r.2 ∧ ∀ k q, r.1 = some (k, q) → Fits q := by
  obtain ⟨h1, h2⟩ := h
  unfold opSlot
  cases f.opIndex with
  | some m => exact ⟨_, rfl, ⟨h1, h2⟩, by rintro k q hc; cases hc; exact ⟨h1, h2⟩⟩
  | none =>
    simp only
    by_cases g1 : p.ops.length = p.opsCap
    · by_cases g2 : p.opsCap ≥ 2147483647
      · rw [if_pos g1, if_pos g2]; exact ⟨_, rfl, ⟨h1, h2⟩, by rintro k q hc; cases hc⟩
      · by_cases g3 : (!e.allocOps p.n) = true
        · rw [if_pos g1, if_neg g2, if_pos g3]; exact ⟨_, rfl, ⟨h1, h2⟩, by rintro k q hc; cases hc⟩
        · rw [if_pos g1, if_neg g2, if_neg g3]
          have : Fits { p with n := p.n + 1, opsCap := if p.opsCap = 0 then 16 else p.opsCap * 3 / 2,
                               ops := p.ops ++ [⟨false, NONE, NONE, none, none, 0⟩] } := by
            refine ⟨?_, ?_⟩
            · show (p.ops ++ [_]).length ≤ if p.opsCap = 0 then 16 else p.opsCap * 3 / 2
              rw [List.length_append, List.length_singleton]
              split <;> omega
            · show (if p.opsCap = 0 then 16 else p.opsCap * 3 / 2) = 0 ∨ 16 ≤ if p.opsCap = 0 then 16 else p.opsCap * 3 / 2
              split <;> omega
          exact ⟨_, rfl, this, by rintro k q hc; cases hc; exact this⟩
    · rw [if_neg g1]
      have : Fits { p with ops := p.ops ++ [⟨false, NONE, NONE, none, none, 0⟩] } := by
        refine ⟨?_, h2⟩
        show (p.ops ++ [_]).length ≤ p.opsCap
        rw [List.length_append, List.length_singleton]
        omega
      exact ⟨_, rfl, this, by rintro k q hc; cases hc; exact this⟩

theorem wr_length {α} {l l' : List α} {i : Nat} {a : α} (h : wr l i a = .ok l') : l'.length = l.length := by
  unfold wr at h
  split at h
  · cases h; simp
  · cases h

theorem submit_fits {e : Env} {b : Bool} {evs : Bits} {d i : Nat} {s s' : Sys} {rc : Int} {wake : Bool}
    (h : submit e b evs d i s = .ok (rc, wake, s')) (hf : Fits s.p) : Fits s'.p := by
  obtain ⟨⟨_ | ⟨k, p⟩, q⟩, k0, k1, k2⟩ := opSlot_fits e (s.obj i) s.p hf
  all_goals
    unfold submit at h
    simp only at h
    rw [k0] at h
  · cases h; exact k1
  · have hp := k2 k p rfl
    simp only at h
    cases hr : rd p.ops k with
    | ub => rw [hr] at h; cases h
    | ok o =>
      rw [hr] at h
      change (if (merge b evs (s.obj i).op o).full = true then _ else _) = _ at h
      split at h
      · generalize hw : wr p.ops k _ = y at h
        cases y with
        | ub => cases h
        | ok ops => cases h; exact ⟨by show ops.length ≤ p.opsCap; rw [wr_length hw]; exact hp.le, hp.some⟩
      · generalize hw : wr p.ops k _ = y at h
        cases y with
        | ub => cases h
        | ok ops => cases h; exact ⟨by show ops.length ≤ p.opsCap; rw [wr_length hw]; exact hp.le, hp.some⟩

/-- A request keeps the operations inside the array. -/
theorem request_fits {e : Env} (he : ∀ n, e.alloc n = true) {fd₀ G l w} (h : WInv fd₀ G l w) (hf : Fits w.s.p) (b : Bool) {i : Nat} {evs : Bits} {d : Nat}
    (ha : Allowed l w b i evs) (hg : G i d) {rc wake s} (hq : (if b then add e evs d i w.s else del e evs d i w.s) = .ok (rc, wake, s)) : Fits s.p := by
  cases hp : w.s.p.polling with
  | true =>
    cases b with
    | true =>
      unfold add at hq
      rw [hp] at hq
      exact submit_fits hq hf
    | false =>
      unfold del at hq
      rw [hp] at hq
      exact submit_fits hq hf
  | false =>
    have hno : (w.s.obj i).opIndex = none := by
      cases hx : (w.s.obj i).opIndex with
      | none => rfl
      | some k =>
        obtain ⟨k', o, -, g2, -⟩ := h.inv.index i k hx
        rw [h.idle hp] at g2
        simp at g2
    cases b with
    | true =>
      unfold add at hq
      rw [hp] at hq
      obtain ⟨f', p', g1, g2, -⟩ := h.inv.addNow he hno (ha.room hp rfl) evs hg
      simp only [if_true, Bool.false_eq_true, if_false] at hq
      rw [g1] at hq
      cases hq
      exact hf.congr g2.ops g2.opsCap
    | false =>
      unfold del at hq
      rw [hp] at hq
      obtain ⟨f', p', g1, g2, -⟩ := h.inv.delNow hno evs hg
      simp only [Bool.false_eq_true, if_false] at hq
      rw [g1] at hq
      cases hq
      exact hf.congr g2.ops g2.opsCap

theorem bind_eq {α β} {x : Res α} {f : α → Res β} {b : β} (h : (x >>= f) = .ok b) : ∃ a, x = .ok a ∧ f a = .ok b := by
  cases x with
  | ub => cases h
  | ok a => exact ⟨a, rfl, h⟩

theorem setCell_ops {p q : P} {a : Nat × Nat} {c : PData} (h : setCell p a c = .ok q) : q.ops = p.ops ∧ q.opsCap = p.opsCap := by
  unfold setCell at h
  obtain ⟨x, -, h⟩ := bind_eq h
  cases x with
  | none => cases h
  | some ch =>
    obtain ⟨_, -, h⟩ := bind_eq h
    obtain ⟨_, -, h⟩ := bind_eq h
    cases h
    exact ⟨rfl, rfl⟩

theorem eventInner_ops {p q : P} {i : Nat} {evs : Bits} (h : eventInner i p = .ok (evs, q)) : q.ops = p.ops ∧ q.opsCap = p.opsCap := by
  unfold eventInner at h
  obtain ⟨s, -, h⟩ := bind_eq h
  split at h
  · cases h; exact ⟨rfl, rfl⟩
  · cases hr : s.rev with
    | none => rw [hr] at h; cases h
    | some r =>
      rw [hr] at h
      simp only at h
      split at h
      · cases h; exact ⟨rfl, rfl⟩
      · obtain ⟨c, -, h⟩ := bind_eq h
        split at h
        · obtain ⟨z, h2, h⟩ := bind_eq h
          have k := setCell_ops h2
          cases h
          exact k
        · cases h; exact ⟨rfl, rfl⟩

theorem fillLoop_ops : ∀ (fuel i : Nat) (acc : List (Bits × Nat)) (p : P) {res q}, fillLoop fuel i acc p = .ok (res, q) → q.ops = p.ops ∧ q.opsCap = p.opsCap
  | 0, _, _, _, _, _, h => by cases h; exact ⟨rfl, rfl⟩
  | fuel + 1, i, acc, p, res, q, h => by
    unfold fillLoop at h
    split at h
    · obtain ⟨⟨evs, p1⟩, h1, h⟩ := bind_eq h
      have k1 := eventInner_ops h1
      simp only at h
      have next : ∀ {acc}, fillLoop fuel (i + 1) acc p1 = .ok (res, q) → q.ops = p.ops ∧ q.opsCap = p.opsCap := by
        intro acc h
        have k2 := fillLoop_ops fuel (i + 1) acc p1 h
        exact ⟨k2.1.trans k1.1, k2.2.trans k1.2⟩
      split at h
      · obtain ⟨c, -, h⟩ := bind_eq h
        split at h
        · cases h; exact k1
        · exact next h
      · exact next h
    · cases h; exact ⟨rfl, rfl⟩

/-- Every step keeps the operations inside the array. -/
theorem step_fits {e : Env} (he : ∀ n, e.alloc n = true) {fd₀ G l w o r w'} (h : WInv fd₀ G l w) (hf : Fits w.s.p) (hs : Step e G l w o r w') : Fits w'.s.p := by
  obtain ⟨ev, k, hw⟩ := h.inv.wf
  cases hs with
  | add ha hg hq => exact request_fits he h hf true ha hg hq
  | del ha hg hq => exact request_fits he h hf false ha hg hq
  | write _ => exact hf
  | rearm hb hr =>
    obtain ⟨p', g1, g2, -⟩ := rearm_ok hw (h.inv.held _) hb
    rw [hr] at g1
    cases g1
    exact hf.congr g2.ops g2.opsCap
  | enter _ _ => exact hf.congr rfl rfl
  | more hp hr hq =>
    obtain ⟨out, p', stop, g1, g2⟩ := fill_ok h.inv.wf h.off h.rem (h.busy hp hr).1
    rw [hq] at g1
    cases g1
    exact hf.congr g2.soft.ops g2.soft.opsCap
  | ret _ hq _ _ =>
    obtain ⟨p', g1, g2, -⟩ := polled_ok hw _
    rw [hq] at g1
    cases g1
    exact hf.congr g2.ops g2.opsCap
  | fail _ hq =>
    obtain ⟨p', g1, g2, -⟩ := polled_ok hw _
    rw [hq] at g1
    cases g1
    exact hf.congr g2.ops g2.opsCap
  | quiet _ => exact hf
  | drain hp hq =>
    obtain ⟨k1, k2⟩ := eventInner_ops hq
    exact hf.congr k1 k2
  | finish hp _ hroom hq =>
    have i0 : Inv fd₀ G (Spec.after l) ({ w.s.p with polling := false } : P) w.s.obj w.s.p.ops 0 := h.inv.congr rfl rfl rfl rfl
    obtain ⟨s1, g1, -, g3, -⟩ := applyOps_ok he w.s.p.ops (s := { w.s with p := { w.s.p with polling := false } }) i0 hroom
    unfold finish at hq
    rw [g1] at hq
    simp only [Res.ok_bind, if_true] at hq
    obtain ⟨⟨res, q⟩, h1, h2⟩ := bind_eq hq
    cases h2
    obtain ⟨k1, k2⟩ := fillLoop_ops _ _ _ _ h1
    have hc : q.opsCap = w.s.p.opsCap := k2.trans g3.opsCap
    refine ⟨?_, ?_⟩
    · show q.ops.length ≤ _; rw [k1]; exact Nat.zero_le _
    · show q.opsCap = 0 ∨ 16 ≤ q.opsCap; rw [hc]; exact hf.some
  | error _ _ => exact hf.congr rfl rfl

theorem runs_fits {e : Env} (he : ∀ n, e.alloc n = true) {fd₀ G w₀ l₀ l w} (h₀ : WInv fd₀ G l₀ w₀) (f₀ : Fits w₀.s.p) (hr : Runs e G w₀ l₀ l w) :
    Fits w.s.p := by
  induction hr with
  | refl => exact f₀
  | step hr hs ih => exact step_fits he (runs_ok he h₀ hr) ih hs

/-- **C74, the array of pending requests is never overrun**: at every point of every history there is room in the array for all
requests that wait to be carried out. A request is written either into a place in use or behind the last one, so every place written is
inside the array. -/
theorem ops_in_bounds {e : Env} {fd₀ G l w} (h : History e fd₀ G l w) : w.s.p.ops.length ≤ w.s.p.opsCap := by
  obtain ⟨w₀, h1, h2⟩ := h.runs
  obtain ⟨w₁, h3, h4, -⟩ := start_ok fd₀ h.fd G h.pipe
  rw [h1] at h3
  cases h3
  have hw : w₀.s.p.ops = [] ∧ w₀.s.p.opsCap = 0 := by
    have : start fd₀ = .ok ⟨⟨first (fd₀ 0), fun j => if j = 0 then ⟨fd₀ 0, READ, some (Table.dataInner 0), none⟩ else fresh fd₀ j⟩, .idle, 0, 0⟩ := by
      with_unfolding_all rfl
    rw [h1] at this
    cases this
    exact ⟨rfl, rfl⟩
  exact (runs_fits h.alloc h4 ⟨by rw [hw.1]; exact Nat.zero_le _, .inl hw.2⟩ h2).le

end Verif.Poll.Win
