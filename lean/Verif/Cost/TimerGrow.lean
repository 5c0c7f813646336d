import Verif.Cost.Timer

/-!
# What growing costs a timer

The functions of the timer once more, with the number of cells that are copied because the array
grows.
-/

namespace Verif.Timer

open Spec

/-- What a piece of client code gives, with the number of cells copied. -/
abbrev OutG (σ : Type) := Option (Cfg × σ × List Ev × Nat)

/-- Put events and copied cells in front. -/
def preG (evs : List Ev) (k : Nat) (o : Res (OutG σ)) : Res (OutG σ) := do
  let r ← o
  return r.map fun (c, s, es, n) => (c, s, evs ++ es, k + n)

/-- The cells that `sc_timer_add` copies when it takes the timer from `t` to `t'`: all `WHEEL_COUNT`
slots of the old array, timer/sc_timer.c:96-100, if `expand` made a new one. -/
def copied (t t' : T) : Nat := if t'.wheel = t.wheel then 0 else WHEEL_COUNT * t.wheel

/-- `exec` with the cells copied (the client of timer/sc_timer.h). -/
def execG : Prog σ → Cfg → Res (OutG σ)
  | .ret s, c => .ok (some (c, s, [], 0))
  | .add al timeout type data k, c =>
    if timeout + c.t.timestamp < INVALID then do
      let (t, id) ← add al c.t timeout type data
      if id = INVALID then
        preG [.addFail] (copied c.t t) (execG (k id) { c with t := t })
      else
        preG [.add timeout type data id] (copied c.t t) (execG (k id) ⟨t, id :: c.issued⟩)
    else .ok none
  | .cancel id k, c =>
    if id = INVALID ∨ id ∈ c.issued then do
      let (t, _) ← cancel c.t id
      preG [.cancel id] 0 (execG k { c with t := t })
    else .ok none
  | .clear k, c => do
    let t ← clear c.t
    preG [.clear] 0 (execG k { c with t := t })

/-- `cells` (timer/sc_timer.c:185-199) with the cells copied by the callbacks. -/
def cellsG (cb : σ → Nat → Nat → Nat → Prog σ) (head : Nat) :
    (n i base : Nat) → Cfg → σ → Res (OutG σ)
  | 0, _, _, c, s => .ok (some (c, s, [], 0))
  | n + 1, i, base, c, s => do
    let index := add32 base i
    let item ← rd c.t.list index
    if item.timeout ≤ c.t.timestamp then
      let l ← wr c.t.list index { item with timeout := INVALID }
      let r ← execG (cb s item.timeout item.type item.data) { c with t := { c.t with list := l } }
      match r with
      | none => .ok none
      | some (c, s, es, k) =>
        let base := mul32 c.t.wheel head
        preG (.fire (mkid i head) item.timeout item.type item.data :: es) k
          (cellsG cb head n (i + 1) base c s)
    else cellsG cb head n (i + 1) base c s

/-- `slots` (timer/sc_timer.c:181-202) with the cells copied by the callbacks. -/
def slotsG (cb : σ → Nat → Nat → Nat → Prog σ) : (wheels head : Nat) → Cfg → σ → Res (OutG σ)
  | 0, _, c, s => .ok (some (c, s, [], 0))
  | n + 1, head, c, s => do
    let r ← cellsG cb head c.t.wheel 0 (mul32 c.t.wheel head) c s
    match r with
    | none => .ok none
    | some (c, s, es, k) => preG es k (slotsG cb n ((head + 1) % WHEEL_COUNT) c s)

/-- `timeout` (timer/sc_timer.c:163-204) with the cells copied by the callbacks. -/
def timeoutG (cb : σ → Nat → Nat → Nat → Prog σ) (ts : Nat) (c : Cfg) (s : σ) : Res (OutG σ × Nat) := do
  let time := sub64 ts c.t.timestamp
  let wheels := (if time / TICK < WHEEL_COUNT then time / TICK else WHEEL_COUNT) % W32
  if wheels = 0 then return (some (c, s, [], 0), hint time)
  let head := c.t.head
  let t := { c.t with timestamp := ts, head := (add32 c.t.head wheels) % WHEEL_COUNT }
  let r ← preG [.now ts] 0 (slotsG cb wheels head { c with t := t } s)
  return (r, hint time)

/-- `step` with the cells copied (timer/sc_timer.h). -/
def stepG (cb : σ → Nat → Nat → Nat → Prog σ) (c : Cfg) (s : σ) : Op σ → Res (OutG σ)
  | .call p => execG (p s) c
  | .timeout ts =>
    if c.t.timestamp ≤ ts ∧ ts < INVALID then do
      let (r, _) ← timeoutG cb ts c s
      return r
    else .ok none
  | .term => .ok (some (⟨term c.t, []⟩, s, [.clear], 0))

/-- A history, with the cells copied (timer/sc_timer.h). -/
def runG (cb : σ → Nat → Nat → Nat → Prog σ) : List (Op σ) → Cfg → σ → Res (OutG σ)
  | [], c, s => .ok (some (c, s, [], 0))
  | op :: ops, c, s => do
    let r ← stepG cb c s op
    match r with
    | none => .ok none
    | some (c, s, es, k) => preG es k (runG cb ops c s)

/-! ## Counting changes nothing -/

/-- Forget the count. -/
def forget (o : Res (OutG σ)) : Res (Out σ) := do
  let r ← o
  return r.map fun (c, s, es, _) => (c, s, es)

theorem forget_pre (evs : List Ev) (k : Nat) (o : Res (OutG σ)) : forget (preG evs k o) = pre evs (forget o) := by
  rcases o with (_ | ⟨c, s, es, n⟩) | _ <;> rfl

theorem execG_forget (p : Prog σ) : ∀ c, forget (execG p c) = exec p c := by
  induction p with
  | ret s => intro c; rfl
  | add al timeout type data k ih =>
    intro c
    rw [exec, execG]
    by_cases hg : timeout + c.t.timestamp < INVALID
    · rw [if_pos hg, if_pos hg]
      cases add al c.t timeout type data with
      | ub => rfl
      | ok v =>
        obtain ⟨t, id⟩ := v
        simp only [Res.ok_bind]
        by_cases hi : id = INVALID
        · rw [if_pos hi, if_pos hi, forget_pre, ih]
        · rw [if_neg hi, if_neg hi, forget_pre, ih]
    · rw [if_neg hg, if_neg hg]; rfl
  | cancel id k ih =>
    intro c
    rw [exec, execG]
    by_cases hg : id = INVALID ∨ id ∈ c.issued
    · rw [if_pos hg, if_pos hg]
      cases cancel c.t id with
      | ub => rfl
      | ok v => obtain ⟨t, id⟩ := v; simp only [Res.ok_bind]; rw [forget_pre, ih]
    · rw [if_neg hg, if_neg hg]; rfl
  | clear k ih =>
    intro c
    rw [exec, execG]
    cases clear c.t with
    | ub => rfl
    | ok t => simp only [Res.ok_bind]; rw [forget_pre, ih]

theorem cellsG_forget (cb : σ → Nat → Nat → Nat → Prog σ) (head n : Nat) :
    ∀ i base c s, forget (cellsG cb head n i base c s) = cells cb head n i base c s := by
  induction n with
  | zero => intro i base c s; rfl
  | succ n ih =>
    intro i base c s
    rw [cells, cellsG]
    simp only
    cases rd c.t.list (add32 base i) with
    | ub => rfl
    | ok item =>
      simp only [Res.ok_bind]
      by_cases hd : item.timeout ≤ c.t.timestamp
      · rw [if_pos hd, if_pos hd]
        cases wr c.t.list (add32 base i) { item with timeout := INVALID } with
        | ub => rfl
        | ok l =>
          simp only [Res.ok_bind]
          rw [← execG_forget]
          generalize execG _ _ = o
          rcases o with (_ | ⟨c, s, es, n⟩) | _
          · rfl
          · exact (forget_pre _ _ _).trans (by rw [ih]; rfl)
          · rfl
      · rw [if_neg hd, if_neg hd, ih]

theorem slotsG_forget (cb : σ → Nat → Nat → Nat → Prog σ) (n : Nat) :
    ∀ head c s, forget (slotsG cb n head c s) = slots cb n head c s := by
  induction n with
  | zero => intro head c s; rfl
  | succ n ih =>
    intro head c s
    rw [slots, slotsG, ← cellsG_forget]
    generalize cellsG _ _ _ _ _ _ _ = o
    rcases o with (_ | ⟨c, s, es, n⟩) | _
    · rfl
    · exact (forget_pre _ _ _).trans (by rw [ih]; rfl)
    · rfl

/-- One call with the count is the call, and its result is the same. -/
theorem timeoutG_forget (cb : σ → Nat → Nat → Nat → Prog σ) (ts : Nat) (c : Cfg) (s : σ) :
    (do
      let (r, h) ← timeoutG cb ts c s
      return (r.map fun (c, s, es, _) => (c, s, es), h)) = timeout cb ts c s := by
  unfold timeout timeoutG
  simp only
  generalize (if sub64 ts c.t.timestamp / TICK < WHEEL_COUNT then sub64 ts c.t.timestamp / TICK else WHEEL_COUNT) % W32 = w
  by_cases h0 : w = 0
  · rw [if_pos h0, if_pos h0]; rfl
  · rw [if_neg h0, if_neg h0, ← slotsG_forget, ← forget_pre _ 0]
    generalize preG _ _ _ = o
    rcases o with (_ | ⟨c, s, es, n⟩) | _ <;> rfl

theorem stepG_forget (cb : σ → Nat → Nat → Nat → Prog σ) (c : Cfg) (s : σ) (op : Op σ) :
    forget (stepG cb c s op) = step cb c s op := by
  cases op with
  | call p => exact execG_forget _ _
  | term => rfl
  | timeout ts =>
    rw [step, stepG]
    by_cases hg : c.t.timestamp ≤ ts ∧ ts < INVALID
    · rw [if_pos hg, if_pos hg, ← timeoutG_forget]
      generalize timeoutG _ _ _ _ = o
      rcases o with ⟨_ | ⟨c, s, es, n⟩, h⟩ | _ <;> rfl
    · rw [if_neg hg, if_neg hg]; rfl

/-- A history with the count is the history. -/
theorem runG_forget (cb : σ → Nat → Nat → Nat → Prog σ) (ops : List (Op σ)) :
    ∀ c s, forget (runG cb ops c s) = run cb ops c s := by
  induction ops with
  | nil => intro c s; rfl
  | cons op ops ih =>
    intro c s
    rw [run, runG, ← stepG_forget]
    generalize stepG _ _ _ _ = o
    rcases o with (_ | ⟨c, s, es, n⟩) | _
    · rfl
    · exact (forget_pre _ _ _).trans (by rw [ih]; rfl)
    · rfl

theorem preG_ok {es es' : List Ev} {k n : Nat} {o : Res (OutG σ)} {c' : Cfg} {s' : σ}
    (h : preG es k o = .ok (some (c', s', es', n))) :
    ∃ es1 n1, o = .ok (some (c', s', es1, n1)) ∧ es' = es ++ es1 ∧ n = k + n1 := by
  unfold preG at h
  obtain ⟨v, hv, h⟩ := Res.bind_eq_ok.1 h
  cases v with
  | none => cases h
  | some v => obtain ⟨a, b, es2, n2⟩ := v; cases h; exact ⟨es2, n2, hv, rfl, rfl⟩

theorem forget_ok {o : Res (OutG σ)} {c : Cfg} {s : σ} {es : List Ev} {n : Nat} (h : o = .ok (some (c, s, es, n))) :
    forget o = .ok (some (c, s, es)) := by
  rw [h]; rfl

/-! ## The bound -/

/-- The timers that were added. -/
def addsOf (es : List Ev) : Nat := es.countP fun e => match e with | .add .. => true | _ => false

/-- `K` cells were copied and `A` timers added so far, `P` are pending, and the wheel is `w`. `B` of
the timers were added before the array was last given back. -/
def Paid (w P A K : Nat) : Prop :=
  ∃ B, P + B ≤ A ∧ K ≤ 32 * B + 16 * (w - 4) ∧ (w ≤ 4 ∨ w + 2 * B ≤ 2 * A) ∧ (w = 0 ∨ 4 ≤ w)

theorem Paid.le {w P A K : Nat} (h : Paid w P A K) : K ≤ 32 * A := by
  obtain ⟨B, h1, h2, h3, h4⟩ := h; omega

theorem Paid.drop {w P P' A K : Nat} (h : Paid w P A K) (hp : P' ≤ P) : Paid w P' A K := by
  obtain ⟨B, h1, h2, h3, h4⟩ := h; exact ⟨B, by omega, h2, h3, h4⟩

theorem Paid.add {w P A K : Nat} (h : Paid w P A K) : Paid w (P + 1) (A + 1) K := by
  obtain ⟨B, h1, h2, h3, h4⟩ := h; exact ⟨B, by omega, h2, by omega, h4⟩

theorem Paid.term {w P A K : Nat} (h : Paid w P A K) : Paid 0 0 A K :=
  ⟨A, by omega, by have := h.le; omega, by omega, .inl rfl⟩

theorem Paid.grow {w P A K : Nat} (h : Paid w P A K) (hw : w ≤ P) : Paid (2 * w) P A (K + 16 * w) := by
  obtain ⟨B, h1, h2, h3, h4⟩ := h
  exact ⟨B, by omega, by omega, by omega, by omega⟩

theorem Paid.first {P A K : Nat} (h : Paid 0 P A K) : Paid 4 P A K := by
  obtain ⟨B, h1, h2, h3, h4⟩ := h
  exact ⟨B, by omega, by omega, by omega, by omega⟩

theorem expand_exact {al : Alloc Nat} {t t' : T} (hw : t.wheel ≤ 11184810) (h : expand al t = .ok (true, t')) :
    (t.wheel = 0 ∧ t'.wheel = 4) ∨ t'.wheel = 2 * t.wheel := by
  rcases expand_wheel hw h with h1 | h1
  · by_cases h0 : t.wheel = 0
    · exact .inl ⟨h0, h1⟩
    · right
      unfold expand at h
      obtain ⟨_, -, h⟩ := Res.bind_eq_ok.1 h
      split at h
      · cases h
      · cases al with
        | none => cases h
        | some fill =>
          simp only at h
          obtain ⟨l, -, h⟩ := Res.bind_eq_ok.1 h
          cases h
          simp only
          rw [mul32_lt (by omega)]; omega
  · exact .inr h1

theorem add_exact {al : Alloc Nat} {t t' : T} {live : Nat → Option Entry} (r : Rep t live) {timeout type data id : Nat}
    (h : add al t timeout type data = .ok (t', id)) :
    t'.wheel = t.wheel ∨ (t.wheel = 0 ∧ t'.wheel = 4) ∨
      (t'.wheel = 2 * t.wheel ∧ ∃ p, p < 16 ∧ ∀ q, q < t.wheel → live (mkid q p) ≠ none) := by
  rcases add_grow r h with h1 | h1 | h1
  · exact .inl h1
  · by_cases h2 : t'.wheel = t.wheel
    · exact .inl h2
    have hadd : ∀ {u u' : T} {a b c d e f : Nat}, addAt u a b c d e f = .ok (u', id) → u'.wheel = u.wheel := by
      intro u u' a b c d e f h
      unfold addAt at h
      obtain ⟨_, _, h⟩ := Res.bind_eq_ok.1 h
      obtain ⟨_, _, h⟩ := Res.bind_eq_ok.1 h
      cases h; rfl
    have hpos : (timeout / 16 + t.head) % W32 % 16 = (timeout / 16 + t.head) % 16 := by omega
    have hp : (timeout / 16 + t.head) % 16 < 16 := by omega
    unfold add at h
    simp only [hpos] at h
    generalize (timeout / 16 + t.head) % 16 = p at *
    rw [mul32_idx hp r.wle] at h
    obtain ⟨f, hf, h⟩ := Res.bind_eq_ok.1 h
    cases f with
    | some s => exact .inl (hadd h)
    | none =>
      simp only at h
      obtain ⟨⟨ok, u⟩, hu, h⟩ := Res.bind_eq_ok.1 h
      cases ok with
      | false =>
        simp only [Bool.not_false, if_true] at h
        cases h
        rcases expand_spec r al with he | ⟨_, he, _⟩
        · rw [he] at hu; cases hu; exact .inl rfl
        · rw [he] at hu; cases hu
      | true =>
        simp only [Bool.not_true, Bool.false_eq_true, if_false] at h
        obtain ⟨_, _, h⟩ := Res.bind_eq_ok.1 h
        obtain ⟨_, _, h⟩ := Res.bind_eq_ok.1 h
        have h1 := hadd h
        rcases expand_exact r.wle hu with ⟨h2, h3⟩ | h2
        · exact .inr (.inl ⟨h2, by omega⟩)
        · exact .inr (.inr ⟨by omega, p, hp, fun q hq => findFree_full r hp t.wheel 0 (by omega) hf q (by omega) hq⟩)
  · exact .inr (.inr h1)

/-- What one call of `sc_timer_add` copies is paid for. -/
theorem add_paid {al : Alloc Nat} {t t' : T} {live : Nat → Option Entry} {l : List Nat} (r : Rep t live) (hn : Names l live)
    {timeout type data id A K : Nat} (h : add al t timeout type data = .ok (t', id)) (hP : Paid t.wheel l.length A K) :
    Paid t'.wheel l.length A (K + copied t t') := by
  unfold copied
  rcases add_exact r h with h1 | ⟨h1, h2⟩ | ⟨h1, p, hp, hl⟩
  · rw [if_pos h1, h1]; exact hP
  · rw [h2, h1, if_neg (by decide)]; rw [h1] at hP; exact hP.first
  · by_cases h0 : t'.wheel = t.wheel
    · rw [if_pos h0, h0]; exact hP
    · rw [if_neg h0, h1]
      exact hP.grow (names_room hn hp hl)

theorem execG_paid (p : Prog σ) : ∀ {c c' : Cfg} {live : Nat → Option Entry} {l : List Nat} {s' : σ} {es : List Ev} {A K n : Nat},
    RepC c live → Names l live → Paid c.t.wheel l.length A K → execG p c = .ok (some (c', s', es, n)) →
      Paid c'.t.wheel (es.foldl pendStep l).length (A + addsOf es) (K + n) := by
  induction p with
  | ret s => intro c c' live l s' es A K n r hn hP h; cases h; exact hP
  | add al timeout type data k ih =>
    intro c c' live l s' es A K n r hn hP h
    rw [execG] at h
    by_cases hg : timeout + c.t.timestamp < INVALID
    · rw [if_pos hg] at h
      obtain ⟨⟨t', id⟩, ha, h⟩ := Res.bind_eq_ok.1 h
      simp only at h
      have hpaid := add_paid r.rep hn ha hP
      rcases add_spec r.rep al hg (type := type) (data := data) with h1 | ⟨t1, s, h1, hl, r', hs, hw, hh, hts⟩
      · rw [h1] at ha; cases ha
        rw [if_pos rfl] at h
        obtain ⟨es1, n1, hx, rfl, rfl⟩ := preG_ok h
        have := ih _ r hn hpaid hx
        rw [Nat.add_assoc] at this
        exact this
      · rw [h1] at ha
        have hp : (timeout / 16 + c.t.head) % 16 < 16 := by omega
        generalize (timeout / 16 + c.t.head) % 16 = p at *
        have hne : mkid s p ≠ INVALID := mkid_ne hp (by have := r'.wle; omega)
        cases ha
        rw [if_neg hne] at h
        obtain ⟨es1, n1, hx, rfl, rfl⟩ := preG_ok h
        have rc : RepC ⟨t', (mkid s p) :: c.issued⟩ (upd live (mkid s p) (some ⟨c.t.timestamp + timeout, type, data⟩)) := by
          refine ⟨r', ?_⟩
          intro id hid
          rcases List.mem_cons.1 hid with rfl | hid
          · exact ⟨p, s, hp, hs, rfl⟩
          · obtain ⟨p', s', h1, h2, h3⟩ := r.issued id hid
            exact ⟨p', s', h1, by simp only; omega, h3⟩
        have := ih _ rc (l := mkid s p :: l) (Names.trace (S := ⟨live, c.t.timestamp⟩) (.add hne hl (.nil _)) hn) hpaid.add hx
        rw [Nat.add_assoc, Nat.add_assoc K, Nat.add_comm 1] at this
        simpa [addsOf, pendStep, List.countP_cons] using this
    · rw [if_neg hg] at h; cases h
  | cancel id k ih =>
    intro c c' live l s' es A K n r hn hP h
    rw [execG] at h
    by_cases hg : id = INVALID ∨ id ∈ c.issued
    · rw [if_pos hg] at h
      obtain ⟨⟨t', x⟩, ha, h⟩ := Res.bind_eq_ok.1 h
      simp only at h
      obtain ⟨es1, n1, hx, rfl, rfl⟩ := preG_ok h
      rw [Nat.zero_add]
      have hlen : (l.filter (· ≠ id)).length ≤ l.length := List.length_filter_le _ _
      by_cases hid : id = INVALID
      · have : cancel c.t id = .ok (c.t, id) := by unfold cancel; rw [if_pos hid]
        rw [this] at ha; cases ha
        have hnone : upd live id none = live := by
          funext x; unfold upd; split
          · next hx =>
            subst hx
            rcases hl : live x with _ | e
            · rfl
            · obtain ⟨p, s, hp, hs, he⟩ := r.rep.dom _ (by rw [hl]; simp)
              exact absurd (he.symm.trans hid) (mkid_ne hp (by have := r.rep.wle; omega))
          · rfl
        have h2 := hn.drop id
        rw [hnone] at h2
        have h3 := ih r h2 (hP.drop hlen) hx
        simpa [addsOf, pendStep] using h3
      · have hm : id ∈ c.issued := hg.resolve_left hid
        obtain ⟨p, s, hp, hs, rfl⟩ := r.issued id hm
        obtain ⟨t1, h1, r', hw, hh, hts⟩ := cancel_spec r.rep hp hs
        rw [h1] at ha; cases ha
        have rc : RepC { c with t := t' } (upd live (mkid s p) none) :=
          ⟨r', fun id hid => by rw [hw]; exact r.issued id hid⟩
        have h3 := ih rc (hn.drop (mkid s p)) (show Paid t'.wheel _ _ _ by rw [hw]; exact hP.drop hlen) hx
        simpa [addsOf, pendStep] using h3
    · rw [if_neg hg] at h; cases h
  | clear k ih =>
    intro c c' live l s' es A K n r hn hP h
    rw [execG] at h
    obtain ⟨t', h1, r', hts, hw⟩ := clear_spec r.rep
    rw [h1, Res.ok_bind] at h
    obtain ⟨es1, n1, hx, rfl, rfl⟩ := preG_ok h
    rw [Nat.zero_add]
    have rc : RepC { c with t := t' } (fun _ => none) := ⟨r', fun id hid => by rw [hw]; exact r.issued id hid⟩
    exact ih rc (l := []) ⟨List.nodup_nil, fun x => by simp⟩ (show Paid t'.wheel _ _ _ by rw [hw]; exact hP.drop (Nat.zero_le _)) hx

theorem addsOf_append (a b : List Ev) : addsOf (a ++ b) = addsOf a + addsOf b := by
  simp [addsOf]

theorem cellsG_paid (cb : σ → Nat → Nat → Nat → Prog σ) {head : Nat} (hh : head < 16) (n : Nat) :
    ∀ {i : Nat} {c c' : Cfg} {live : Nat → Option Entry} {l : List Nat} {s s' : σ} {es : List Ev} {A K k : Nat}, RepC c live → Names l live →
      Paid c.t.wheel l.length A K →
      i + n ≤ c.t.wheel → cellsG cb head n i (mul32 c.t.wheel head) c s = .ok (some (c', s', es, k)) →
      Paid c'.t.wheel (es.foldl pendStep l).length (A + addsOf es) (K + k) ∧ ∃ live', RepC c' live' ∧ Names (es.foldl pendStep l) live' := by
  induction n with
  | zero => intro i c c' live l s s' es A K k r hn hP _ h; cases h; exact ⟨hP, live, r, hn⟩
  | succ n ih =>
    intro i c c' live l s s' es A K k r hn hP hi h
    have hbase : mul32 c.t.wheel head = head * c.t.wheel := by
      have := mul32_idx hh r.rep.wle
      unfold mul32 at this ⊢; rw [Nat.mul_comm]; exact this
    obtain ⟨item, hc1, hc2⟩ := r.rep.cell head i hh (by omega)
    rw [cellsG] at h
    simp only [hbase] at h
    rw [add32_idx hh (by omega) r.rep.wle, rd_eq_ok.2 hc1, Res.ok_bind] at h
    by_cases hdue : item.timeout ≤ c.t.timestamp
    · rw [if_pos hdue] at h
      have hlt := idx_lt hh (show i < c.t.wheel by omega)
      rw [wr_lt (by rw [r.rep.len]; omega), Res.ok_bind] at h
      have r1 := r.rep.set hh (show i < c.t.wheel by omega) { item with timeout := INVALID }
      rw [show entry { item with timeout := INVALID } = none by simp [entry]] at r1
      have rc1 := RepC.mk (c := ⟨_, c.issued⟩) r1 r.issued
      obtain ⟨o, ho, h⟩ := Res.bind_eq_ok.1 h
      cases o with
      | none => cases h
      | some v =>
        obtain ⟨c2, s2, es2, k2⟩ := v
        simp only at h
        obtain ⟨es3, n3, hx, rfl, rfl⟩ := preG_ok h
        have g2 := execG_paid _ rc1 (hn.drop (mkid i head)) (hP.drop (List.length_filter_le _ _)) ho
        have ho' := forget_ok ho
        rw [execG_forget] at ho'
        obtain ⟨live2, r2, hn2, hw2⟩ := exec_names rc1 (hn.drop (mkid i head)) ho'
        simp only at g2 hw2
        obtain ⟨g3, live3, r3, hn3⟩ := ih (i := i + 1) r2 hn2 g2 (by omega) hx
        simp only [List.cons_append, List.foldl_cons, List.foldl_append]
        refine ⟨?_, live3, r3, hn3⟩
        have : addsOf (Ev.fire (mkid i head) item.timeout item.type item.data :: (es2 ++ es3)) = addsOf es2 + addsOf es3 := by
          rw [← addsOf_append]; simp [addsOf]
        rw [this, ← Nat.add_assoc, ← Nat.add_assoc]
        exact g3
    · rw [if_neg hdue, ← hbase] at h
      exact ih (i := i + 1) r hn hP (by omega) h

theorem slotsG_paid (cb : σ → Nat → Nat → Nat → Prog σ) (n : Nat) :
    ∀ {head : Nat} {c c' : Cfg} {live : Nat → Option Entry} {l : List Nat} {s s' : σ} {es : List Ev} {A K k : Nat}, head < 16 → RepC c live →
      Names l live → Paid c.t.wheel l.length A K → slotsG cb n head c s = .ok (some (c', s', es, k)) →
      Paid c'.t.wheel (es.foldl pendStep l).length (A + addsOf es) (K + k) := by
  induction n with
  | zero => intro head c c' live l s s' es A K k _ r hn hP h; cases h; exact hP
  | succ n ih =>
    intro head c c' live l s s' es A K k hh r hn hP h
    rw [slotsG] at h
    obtain ⟨o, ho, h⟩ := Res.bind_eq_ok.1 h
    cases o with
    | none => cases h
    | some v =>
      obtain ⟨c1, s1, es1, k1⟩ := v
      simp only at h
      obtain ⟨es3, n3, hx, rfl, rfl⟩ := preG_ok h
      obtain ⟨g1, live1, r1, hn1⟩ := cellsG_paid cb hh c.t.wheel (i := 0) r hn hP (by omega) ho
      have := ih (Nat.mod_lt _ (by decide)) r1 hn1 g1 hx
      rw [List.foldl_append, addsOf_append, ← Nat.add_assoc, ← Nat.add_assoc]
      exact this

theorem stepG_paid (cb : σ → Nat → Nat → Nat → Prog σ) {c c' : Cfg} {live : Nat → Option Entry} {l : List Nat} {s s' : σ} {es : List Ev}
    {A K k : Nat} {op : Op σ} (r : RepC c live) (hn : Names l live) (hP : Paid c.t.wheel l.length A K)
    (h : stepG cb c s op = .ok (some (c', s', es, k))) :
    Paid c'.t.wheel (es.foldl pendStep l).length (A + addsOf es) (K + k) := by
  cases op with
  | call p => exact execG_paid _ r hn hP h
  | term => cases h; exact hP.term
  | timeout ts =>
    rw [stepG] at h
    by_cases hg : c.t.timestamp ≤ ts ∧ ts < INVALID
    · rw [if_pos hg] at h
      obtain ⟨⟨v, ret⟩, hv, h⟩ := Res.bind_eq_ok.1 h
      cases h
      unfold timeoutG at hv
      simp only at hv
      generalize hw : (if sub64 ts c.t.timestamp / TICK < WHEEL_COUNT then sub64 ts c.t.timestamp / TICK else WHEEL_COUNT) % W32 = w at hv
      by_cases h0 : w = 0
      · rw [if_pos h0] at hv; cases hv; exact hP
      · rw [if_neg h0] at hv
        obtain ⟨o, ho, hv⟩ := Res.bind_eq_ok.1 hv
        cases hv
        obtain ⟨es3, n3, hx, rfl, rfl⟩ := preG_ok ho
        have r1 : RepC { c with t := { c.t with timestamp := ts, head := add32 c.t.head w % WHEEL_COUNT } } live :=
          ⟨⟨r.rep.len, r.rep.wle, Nat.mod_lt _ (by decide), hg.2, r.rep.cell, r.rep.dom⟩, r.issued⟩
        rw [Nat.zero_add]
        have h3 := slotsG_paid cb w r.rep.head r1 hn hP hx
        simpa [addsOf, pendStep] using h3
    · rw [if_neg hg] at h; cases h

theorem runG_paid (cb : σ → Nat → Nat → Nat → Prog σ) (ops : List (Op σ)) :
    ∀ {c c' : Cfg} {live : Nat → Option Entry} {l : List Nat} {s s' : σ} {es : List Ev} {A K k : Nat}, RepC c live → Names l live →
      Paid c.t.wheel l.length A K → runG cb ops c s = .ok (some (c', s', es, k)) →
      Paid c'.t.wheel (es.foldl pendStep l).length (A + addsOf es) (K + k) := by
  induction ops with
  | nil => intro c c' live l s s' es A K k r hn hP h; cases h; exact hP
  | cons op ops ih =>
    intro c c' live l s s' es A K k r hn hP h
    rw [runG] at h
    obtain ⟨o, ho, h⟩ := Res.bind_eq_ok.1 h
    cases o with
    | none => cases h
    | some v =>
      obtain ⟨c1, s1, es1, k1⟩ := v
      simp only at h
      obtain ⟨es3, n3, hx, rfl, rfl⟩ := preG_ok h
      have ho' := forget_ok ho
      rw [stepG_forget] at ho'
      obtain ⟨o, ho2, hg⟩ := step_spec cb (s := s) r op
      rw [ho'] at ho2; cases ho2
      obtain ⟨live1, t1, r1⟩ := hg _ _ _ rfl
      have := ih r1 (Names.trace t1 hn) (stepG_paid cb r hn hP ho) hx
      rw [List.foldl_append, addsOf_append, ← Nat.add_assoc, ← Nat.add_assoc]
      exact this

/-- **C120**, timers. Over a whole history, with calls inside callbacks, with the array given back
and made again and with allocations that fail, at most 32 cells are copied per timer added. The
history with the count is the history itself (`runG_forget`).
Missing: buffers, for which it fails
(`buf_copies_violated`). -/
theorem timer_copies_partial (cb : σ → Nat → Nat → Nat → Prog σ) (ops : List (Op σ)) (ts0 : Nat) (h0 : ts0 < INVALID) (s0 : σ)
    {c : Cfg} {s : σ} {es : List Ev} (h : run cb ops ⟨init ts0, []⟩ s0 = .ok (some (c, s, es))) :
    ∃ n, runG cb ops ⟨init ts0, []⟩ s0 = .ok (some (c, s, es, n)) ∧ n ≤ 32 * addsOf es := by
  rw [← runG_forget] at h
  generalize hG : runG cb ops ⟨init ts0, []⟩ s0 = o at h
  rcases o with (_ | ⟨c1, s1, es1, n⟩) | _
  · cases h
  · cases h
    refine ⟨n, rfl, ?_⟩
    have := runG_paid cb ops (l := []) (A := 0) (K := 0) (repC_init h0) ⟨List.nodup_nil, fun x => by simp⟩
      ⟨0, by simp, by simp, .inl (by simp [init]), .inl (by simp [init])⟩ hG
    have := this.le
    omega
  · cases h

/-- Five timers for the same moment: the array is made for the first and grows for the fifth, which
copies its 64 cells. -/
example :
    let a : Prog Unit → Prog Unit := fun k => .add (some fun _ => 0) 5 1 2 fun _ => k
    ((runG (fun s _ _ _ => .ret s) [.call fun s => a (a (a (a (a (.ret s)))))] ⟨init 0, []⟩ ()).bind fun o =>
      .ok (o.map fun (c, _, es, n) => (c.t.wheel, addsOf es, n))) = .ok (some (8, 5, 64)) := by decide +kernel

end Verif.Timer
