import Verif.Timer.Model
import Verif.Memory.Store

/-! # The memory of timers: `timer/sc_timer.c` with pointers

The callback of `sc_timer_timeout` can add timers, and so replace the list while
`sc_timer_timeout` goes through it. -/

namespace Verif.Memory.Timer
open Verif.Timer

/-- `struct sc_timer`, timer/sc_timer.h:57-62, with the pointer `list`. -/
structure Obj where
  timestamp : Nat
  head : Nat
  wheel : Nat
  list : Option Nat

/-- The timer of the model without memory: with the cells `list` points to. -/
abbrev Obj.view (o : Obj) (b : List Cell) : T := ⟨o.timestamp, o.head, o.wheel, b⟩

/-- The memory of timers. -/
abbrev Mem := Store (List Cell)

/-- `sc_timer_init`, timer/sc_timer.c:44-49. -/
def init (timestamp : Nat) : Obj := ⟨timestamp, 0, 0, none⟩

/-- `sc_timer_term`, timer/sc_timer.c:51-58. -/
def term (o : Obj) (st : Mem) : Res (Obj × Mem) := do
  let st ← free o.list st
  .ok (⟨o.timestamp, 0, 0, none⟩, st)

/-- Code that neither allocates nor frees: it reads and writes the cells `list` points to and
leaves the pointer alone. -/
def keep {ρ : Type} (f : T → Res (T × ρ)) (o : Obj) (st : Mem) : Res ((Obj × ρ) × Mem) := do
  let b ← load [] o.list st
  let (t, r) ← f (o.view b)
  let st ← store t.list o.list st
  .ok ((⟨t.timestamp, t.head, t.wheel, o.list⟩, r), st)

/-- `sc_timer_clear`, timer/sc_timer.c:60-70. -/
def clear (o : Obj) (st : Mem) : Res ((Obj × Unit) × Mem) :=
  keep (fun t => do let t ← Verif.Timer.clear t; .ok (t, ())) o st

/-- `sc_timer_cancel`, timer/sc_timer.c:147-159. -/
def cancel (o : Obj) (id : Nat) (st : Mem) : Res ((Obj × Nat) × Mem) :=
  keep (fun t => Verif.Timer.cancel t id) o st

/-- The copy loop of `expand`, timer/sc_timer.c:97-103, from slot `i` on: from the block of
`src` to the block `dst`. -/
def copyLoop (dst : Nat) (src : Option Nat) (wheel : Nat) : (n i : Nat) → Mem → Res Mem
  | 0, _, st => .ok st
  | n + 1, i, st => do
    let new ← load [] (some dst) st
    let old ← load [] src st
    let new ← copyCells new (mul32 (mul32 i wheel) 2) old (mul32 i wheel) wheel
    let st ← store new (some dst) st
    copyLoop dst src wheel n (i + 1) st

/-- `expand`, timer/sc_timer.c:72-111. -/
def expand (al : Alloc Nat) (o : Obj) (st : Mem) : Res ((Obj × Bool) × Mem) := do
  let wheel := if o.wheel ≠ 0 then mul32 o.wheel 2 else 4
  let cap := mul32 (mul32 wheel WHEEL_COUNT) 2
  let size := mul64 cap 24
  cassert (size ≠ 0)
  if o.wheel ≥ TIMER_MAX / 2 then .ok ((o, false), st)
  else match al with
  | none => .ok ((o, false), st)
  | some fill =>
    let (dst, st) := alloc (blank cap fill) st
    let st ← if o.wheel ≠ 0 then copyLoop dst o.list o.wheel WHEEL_COUNT 0 st else .ok st
    let st ← free o.list st
    .ok (({ o with list := some dst, wheel := wheel }, true), st)

/-- The end of `sc_timer_add` after an expansion, timer/sc_timer.c:133-144. -/
def addNew (seq pos timeout type data : Nat) (t : T) : Res (T × Nat) := do
  let index := add32 (mul32 pos t.wheel) seq
  let c ← rd t.list index
  cassert (c.timeout = INVALID)
  addAt t index seq pos timeout type data

/-- `sc_timer_add`, timer/sc_timer.c:113-145. -/
def add (al : Alloc Nat) (o : Obj) (timeout type data : Nat) (st : Mem) :
    Res ((Obj × Nat) × Mem) := do
  let offset := (timeout / TICK + o.head) % W32
  let pos := offset % WHEEL_COUNT
  let wheelPos := mul32 pos o.wheel
  let b ← load [] o.list st
  match ← findFree b wheelPos o.wheel 0 with
  | some seq => keep (fun t => addAt t (add32 wheelPos seq) seq pos timeout type data) o st
  | none =>
    let seq := o.wheel
    let ((o, ok), st) ← expand al o st
    if !ok then .ok ((o, INVALID), st)
    else keep (addNew seq pos timeout type data) o st

/-- A timer, with what the client has been given so far. -/
structure Cfg where
  t : Obj
  issued : List Nat

/-- The state of the model without memory. -/
abbrev Cfg.view (c : Cfg) (b : List Cell) : Verif.Timer.Cfg := ⟨c.t.view b, c.issued⟩

/-- The outcome of defined client code: `none` if the client broke a rule of the API. -/
abbrev Out (σ : Type) := Option (Cfg × σ × List Ev) × Mem

/-- Put events in front. -/
def pre (evs : List Ev) (o : Res (Out σ)) : Res (Out σ) := do
  let (r, st) ← o
  return (r.map fun (c, s, es) => (c, s, evs ++ es), st)

/-- Running client code (`Verif.Timer.exec`, with its rules). -/
def exec : Prog σ → Cfg → Mem → Res (Out σ)
  | .ret s, c, st => .ok (some (c, s, []), st)
  | .add al timeout type data k, c, st =>
    if timeout + c.t.timestamp < INVALID then do
      let ((t, id), st) ← add al c.t timeout type data st
      if id = INVALID then
        pre [.addFail] (exec (k id) { c with t := t } st)
      else
        pre [.add timeout type data id] (exec (k id) ⟨t, id :: c.issued⟩ st)
    else .ok (none, st)
  | .cancel id k, c, st =>
    if id = INVALID ∨ id ∈ c.issued then do
      let ((t, _), st) ← cancel c.t id st
      pre [.cancel id] (exec k { c with t := t } st)
    else .ok (none, st)
  | .clear k, c, st => do
    let ((t, _), st) ← clear c.t st
    pre [.clear] (exec k { c with t := t } st)

/-- Going over one cell, timer/sc_timer.c:186-190: what it holds, and if it has expired it is
made free. -/
def visit (index : Nat) (t : T) : Res (T × Cell) := do
  let item ← rd t.list index
  if item.timeout ≤ t.timestamp then
    let l ← wr t.list index { item with timeout := INVALID }
    .ok ({ t with list := l }, item)
  else .ok (t, item)

/-- The inner loop of `sc_timer_timeout`, timer/sc_timer.c:185-199. `item` is `&t->list[...]`,
computed anew in every round (186); `item->type` and `item->data` are read before the callback
runs (192), and `item` is not used after it. -/
def cells (cb : σ → Nat → Nat → Nat → Prog σ) (head : Nat) :
    (n i base : Nat) → Cfg → σ → Mem → Res (Out σ)
  | 0, _, _, c, s, st => .ok (some (c, s, []), st)
  | n + 1, i, base, c, s, st => do
    let ((t, item), st) ← keep (visit (add32 base i)) c.t st
    let c := { c with t := t }
    if item.timeout ≤ c.t.timestamp then
      let (r, st) ← exec (cb s item.timeout item.type item.data) c st
      match r with
      | none => .ok (none, st)
      | some (c, s, es) =>
        let base := mul32 c.t.wheel head
        pre (.fire (mkid i head) item.timeout item.type item.data :: es)
          (cells cb head n (i + 1) base c s st)
    else cells cb head n (i + 1) base c s st

/-- The outer loop of `sc_timer_timeout`, timer/sc_timer.c:181-202. -/
def slots (cb : σ → Nat → Nat → Nat → Prog σ) : (wheels head : Nat) → Cfg → σ → Mem → Res (Out σ)
  | 0, _, c, s, st => .ok (some (c, s, []), st)
  | n + 1, head, c, s, st => do
    let (r, st) ← cells cb head c.t.wheel 0 (mul32 c.t.wheel head) c s st
    match r with
    | none => .ok (none, st)
    | some (c, s, es) => pre es (slots cb n ((head + 1) % WHEEL_COUNT) c s st)

/-- `sc_timer_timeout`, timer/sc_timer.c:163-204, without the return value. -/
def timeout (cb : σ → Nat → Nat → Nat → Prog σ) (ts : Nat) (c : Cfg) (s : σ) (st : Mem) :
    Res (Out σ) :=
  let time := sub64 ts c.t.timestamp
  let wheels := (if time / TICK < WHEEL_COUNT then time / TICK else WHEEL_COUNT) % W32
  if wheels = 0 then .ok (some (c, s, []), st)
  else
    let head := c.t.head
    let t := { c.t with timestamp := ts, head := (add32 c.t.head wheels) % WHEEL_COUNT }
    pre [.now ts] (slots cb wheels head { c with t := t } s st)

/-- What the client does at top level (`Verif.Timer.step`, with its rules). -/
def step (cb : σ → Nat → Nat → Nat → Prog σ) (c : Cfg) (s : σ) (op : Op σ) (st : Mem) :
    Res (Out σ) :=
  match op with
  | .call p => exec (p s) c st
  | .timeout ts =>
    if c.t.timestamp ≤ ts ∧ ts < INVALID then timeout cb ts c s st else .ok (none, st)
  | .term => do
    let (t, st) ← term c.t st
    .ok (some (⟨t, []⟩, s, [.clear]), st)

/-- One action of a client that keeps the rules. -/
def act (cb : σ → Nat → Nat → Nat → Prog σ) (o : Cfg × σ) (op : Op σ) (st : Mem) :
    Res (((Cfg × σ) × List Ev) × Mem) := do
  let (r, st) ← step cb o.1 o.2 op st
  match r with
  | none => .ub
  | some (c, s, es) => .ok (((c, s), es), st)

/-- The same in the model without memory. -/
def actV (cb : σ → Nat → Nat → Nat → Prog σ) (v : Verif.Timer.Cfg × σ) (op : Op σ) :
    Res ((Verif.Timer.Cfg × σ) × List Ev) := do
  let r ← Verif.Timer.step cb v.1 v.2 op
  match r with
  | none => .ub
  | some (c, s, es) => .ok ((c, s), es)

/-- `sc_timer_term`, timer/sc_timer.c:51-58; ids that were handed out are no longer valid. -/
def close (o : Cfg × σ) (st : Mem) : Res ((Cfg × σ) × Mem) := do
  let (t, st) ← term o.1.t st
  .ok ((⟨t, []⟩, o.2), st)

/-- Timers with their clients. A client that breaks a rule of the API is left out. -/
def kind (cb : σ → Nat → Nat → Nat → Prog σ) : Kind where
  Obj := Cfg × σ
  Blk := List Cell
  View := Verif.Timer.Cfg × σ
  Arg := Nat × σ
  Op := Op σ
  Out := List Ev
  null := []
  ptr o := o.1.t.list
  view o b := (o.1.view b, o.2)
  inv _ _ := True
  initP a st := .ok (some (⟨init a.1, []⟩, a.2), st)
  init a := .ok (some (⟨Verif.Timer.init a.1, []⟩, a.2))
  stepP := act cb
  step := actV cb
  termP := close

/-! ## The two models do the same -/

/-- The timer `o` in the memory `st` is `t`. -/
def RepT (o : Obj) (st : Mem) (t : T) : Prop :=
  load [] o.list st = .ok t.list ∧ o.view t.list = t

/-- The same with what the client was given. -/
def RepC (c : Cfg) (st : Mem) (c' : Verif.Timer.Cfg) : Prop :=
  load [] c.t.list st = .ok c'.t.list ∧ c.view c'.t.list = c'

theorem RepT.of {o : Obj} {st : Mem} {t : T} (h : RepT o st t) :
    ∃ b, load [] o.list st = .ok b ∧ t = o.view b := ⟨_, h.1, h.2.symm⟩

theorem RepC.of {c : Cfg} {st : Mem} {c' : Verif.Timer.Cfg} (h : RepC c st c') :
    ∃ b, load [] c.t.list st = .ok b ∧ c' = c.view b := ⟨_, h.1, h.2.symm⟩

theorem keep_ok {ρ : Type} {f : T → Res (T × ρ)} {o : Obj} {st : Mem} {t t' : T} {r : ρ}
    (hf : f t = .ok (t', r) → t'.list.length = t.list.length) (hw : st.WF) (hr : RepT o st t)
    (h : f t = .ok (t', r)) :
    ∃ o' st', keep f o st = .ok ((o', r), st') ∧ Moves st st' o.list o'.list ∧ RepT o' st' t' ∧
      o'.timestamp = t'.timestamp := by
  obtain ⟨b, hb, rfl⟩ := hr.of
  obtain ⟨st', hs, hm, hl⟩ := store_ok hw hb (hf h)
  exact ⟨⟨t'.timestamp, t'.head, t'.wheel, o.list⟩, st', by simp [keep, hb, h, hs], hm, ⟨hl, rfl⟩, rfl⟩

theorem wr_length {m m' : List α} {i : Nat} {x : α} (h : wr m i x = .ok m') :
    m'.length = m.length := by
  rw [(wr_eq_ok.1 h).2]; simp

theorem clearLoop_length : ∀ {n i : Nat} {l l' : List Cell}, clearLoop n i l = .ok l' →
    l'.length = l.length := by
  intro n
  induction n with
  | zero => intro i l l' h; cases h; rfl
  | succ n ih =>
    intro i l l' h
    obtain ⟨c, _, h⟩ := Res.bind_eq_ok.1 h
    obtain ⟨l1, h1, h⟩ := Res.bind_eq_ok.1 h
    rw [ih h, wr_length h1]

theorem clear_length {t t' : T} (h : Verif.Timer.clear t = .ok t') : t'.list.length = t.list.length := by
  obtain ⟨l, hl, h⟩ := Res.bind_eq_ok.1 h
  cases h
  exact clearLoop_length hl

theorem cancel_length {t t' : T} {id r : Nat} (h : Verif.Timer.cancel t id = .ok (t', r)) :
    t'.list.length = t.list.length := by
  simp only [Verif.Timer.cancel] at h
  split at h
  · cases h; rfl
  · obtain ⟨c, _, h⟩ := Res.bind_eq_ok.1 h
    obtain ⟨l1, h1, h⟩ := Res.bind_eq_ok.1 h
    cases h
    exact wr_length h1

theorem addAt_length {t t' : T} {a b c d e f r : Nat} (h : addAt t a b c d e f = .ok (t', r)) :
    t'.list.length = t.list.length := by
  obtain ⟨l1, h1, h⟩ := Res.bind_eq_ok.1 h
  obtain ⟨_, _, h⟩ := Res.bind_eq_ok.1 h
  cases h
  exact wr_length h1

theorem addNew_length {t t' : T} {b c d e f r : Nat} (h : addNew b c d e f t = .ok (t', r)) :
    t'.list.length = t.list.length := by
  obtain ⟨_, _, h⟩ := Res.bind_eq_ok.1 h
  obtain ⟨_, _, h⟩ := Res.bind_eq_ok.1 h
  exact addAt_length h

theorem visit_length {t t' : T} {i : Nat} {r : Cell} (h : visit i t = .ok (t', r)) :
    t'.list.length = t.list.length := by
  obtain ⟨_, _, h⟩ := Res.bind_eq_ok.1 h
  split at h
  · obtain ⟨_, h1, h⟩ := Res.bind_eq_ok.1 h
    cases h
    exact wr_length h1
  · cases h; rfl

theorem copyCells_length {d s : List Cell} {a b n : Nat} {d' : List Cell}
    (h : copyCells d a s b n = .ok d') : d'.length = d.length := by
  simp only [copyCells] at h
  split at h
  · cases h; simp only [List.length_append, List.length_take, List.length_drop]; omega
  · cases h

/-- The old block `p` stays what it is while the new one `dst` is filled. -/
theorem copyLoop_ok {st0 : Mem} {p : Option Nat} {dst wheel : Nat} {old : List Cell}
    (hp : load [] p st0 = .ok old) :
    ∀ {n i : Nat} {st : Mem} {new new' : List Cell}, Moves st0 st none (some dst) →
      load [] (some dst) st = .ok new → Verif.Timer.copyLoop old wheel n i new = .ok new' →
      ∃ st', copyLoop dst p wheel n i st = .ok st' ∧ Moves st0 st' none (some dst) ∧
        load [] (some dst) st' = .ok new' := by
  intro n
  induction n with
  | zero =>
    intro i st new new' hm hl h
    cases h
    exact ⟨st, rfl, hm, hl⟩
  | succ n ih =>
    intro i st new new' hm hl h
    obtain ⟨new1, h1, h⟩ := Res.bind_eq_ok.1 h
    obtain ⟨hb, -⟩ := replace_ok hp hm
    obtain ⟨st1, hs, hm1, hl1⟩ := store_ok hm.wf hl (copyCells_length h1)
    obtain ⟨st2, he, hm2, hl2⟩ := ih (hm.trans hm1) hl1 h
    exact ⟨st2, by simp only [copyLoop, hl, hb, h1, hs, Res.ok_bind, he], hm2, hl2⟩

theorem expand_ok {al : Alloc Nat} {o : Obj} {st : Mem} {t t' : T} {r : Bool} (hw : st.WF)
    (hr : RepT o st t) (h : Verif.Timer.expand al t = .ok (r, t')) :
    ∃ o' st', expand al o st = .ok ((o', r), st') ∧ Moves st st' o.list o'.list ∧
      RepT o' st' t' := by
  obtain ⟨b, hb, rfl⟩ := hr.of
  unfold Verif.Timer.expand at h
  unfold expand
  obtain ⟨u, hu, h⟩ := Res.bind_eq_ok.1 h
  dsimp only [Obj.view] at hu h
  dsimp only
  rw [hu]
  simp only [Res.ok_bind]
  by_cases hc : o.wheel ≥ TIMER_MAX / 2
  · rw [if_pos hc] at h ⊢
    cases h
    exact ⟨o, st, rfl, .refl hw (load_valid hb), hb, rfl⟩
  · rw [if_neg hc] at h ⊢
    cases al with
    | none =>
      cases h
      exact ⟨o, st, rfl, .refl hw (load_valid hb), hb, rfl⟩
    | some fill =>
      dsimp only at h ⊢
      obtain ⟨hma, hla⟩ := alloc_ok []
        (blank (mul32 (mul32 (if o.wheel ≠ 0 then mul32 o.wheel 2 else 4) WHEEL_COUNT) 2) fill) hw
      by_cases h0 : o.wheel ≠ 0
      · simp only [if_pos h0] at h hma hla ⊢
        obtain ⟨new, hn, h⟩ := Res.bind_eq_ok.1 h
        cases h
        obtain ⟨st1, hc1, hm1, hl1⟩ := copyLoop_ok hb hma hla hn
        obtain ⟨-, st2, hf, hm2, hl2⟩ := replace_ok hb hm1
        rw [hl1] at hl2
        refine ⟨⟨o.timestamp, o.head, mul32 o.wheel 2, _⟩, st2, ?_, hm2, hl2, rfl⟩
        rw [hc1]
        simp only [Res.ok_bind, hf]
      · simp only [if_neg h0] at h hma hla ⊢
        cases h
        obtain ⟨-, st2, hf, hm2, hl2⟩ := replace_ok hb hma
        rw [hla] at hl2
        refine ⟨⟨o.timestamp, o.head, 4, _⟩, st2, ?_, hm2, hl2, rfl⟩
        simp only [Res.ok_bind, hf]

theorem add_ok {al : Alloc Nat} {o : Obj} {a b c : Nat} {st : Mem} {t t' : T} {r : Nat}
    (hw : st.WF) (hr : RepT o st t) (h : Verif.Timer.add al t a b c = .ok (t', r)) :
    ∃ o' st', add al o a b c st = .ok ((o', r), st') ∧ Moves st st' o.list o'.list ∧
      RepT o' st' t' := by
  obtain ⟨l, hb, rfl⟩ := hr.of
  unfold Verif.Timer.add at h
  unfold add
  obtain ⟨x, hx, h⟩ := Res.bind_eq_ok.1 h
  dsimp only [Obj.view] at hx h
  simp only [hb, Res.ok_bind, hx]
  cases x with
  | some seq =>
    obtain ⟨o', st', h1, h2, h3, _⟩ := keep_ok
      (f := fun t => addAt t (add32 (mul32 ((a / TICK + o.head) % W32 % WHEEL_COUNT) o.wheel) seq) seq
        ((a / TICK + o.head) % W32 % WHEEL_COUNT) a b c) addAt_length hw hr h
    exact ⟨o', st', h1, h2, h3⟩
  | none =>
    obtain ⟨⟨ok, t1⟩, ht, h⟩ := Res.bind_eq_ok.1 h
    obtain ⟨o1, st1, e1, m1, r1⟩ := expand_ok hw hr ht
    simp only [e1, Res.ok_bind]
    cases ok with
    | false =>
      cases h
      exact ⟨o1, st1, rfl, m1, r1⟩
    | true =>
      obtain ⟨o', st', h1, h2, h3, _⟩ := keep_ok
        (f := addNew o.wheel ((a / TICK + o.head) % W32 % WHEEL_COUNT) a b c) addNew_length m1.wf r1 h
      exact ⟨o', st', h1, m1.trans h2, h3⟩

theorem pre_some {evs es : List Ev} {r : Res (Verif.Timer.Out σ)} {c : Verif.Timer.Cfg} {s : σ}
    (h : Verif.Timer.pre evs r = .ok (some (c, s, es))) :
    ∃ es', r = .ok (some (c, s, es')) ∧ es = evs ++ es' := by
  cases r with
  | ub => cases h
  | ok x =>
    cases x with
    | none => cases h
    | some x =>
      obtain ⟨c', s', es'⟩ := x
      cases h
      exact ⟨es', rfl, rfl⟩

theorem pre_ok {evs es : List Ev} {c : Cfg} {s : σ} {st : Mem} :
    pre evs (.ok (some (c, s, es), st)) = .ok (some (c, s, evs ++ es), st) := rfl

theorem exec_ok {p : Prog σ} : ∀ {c : Cfg} {st : Mem} {c1 c2 : Verif.Timer.Cfg} {s : σ} {es : List Ev},
    st.WF → RepC c st c1 → Verif.Timer.exec p c1 = .ok (some (c2, s, es)) →
    ∃ c' st', exec p c st = .ok (some (c', s, es), st') ∧ Moves st st' c.t.list c'.t.list ∧
      RepC c' st' c2 := by
  induction p with
  | ret s0 =>
    intro c st c1 c2 s es hw hr h
    cases h
    exact ⟨c, st, rfl, .refl hw (load_valid hr.1), hr⟩
  | add al timeout type data k ih =>
    intro c st c1 c2 s es hw hr h
    obtain ⟨b, hb, rfl⟩ := hr.of
    simp only [Verif.Timer.exec] at h
    simp only [exec]
    by_cases ht : timeout + c.t.timestamp < INVALID
    · rw [if_pos ht] at h ⊢
      obtain ⟨⟨t1, id⟩, ha, h⟩ := Res.bind_eq_ok.1 h
      obtain ⟨o1, st1, e1, m1, r1⟩ := add_ok (t := c.t.view b) hw ⟨hb, rfl⟩ ha
      simp only [e1, Res.ok_bind]
      by_cases hid : id = INVALID
      · rw [if_pos hid] at h ⊢
        obtain ⟨es', hh, rfl⟩ := pre_some h
        obtain ⟨c', st', h1, h2, h3⟩ := ih id (c := { c with t := o1 }) m1.wf
          ⟨r1.1, by rw [Cfg.view, r1.2]⟩ hh
        exact ⟨c', st', by rw [h1, pre_ok], m1.trans h2, h3⟩
      · rw [if_neg hid] at h ⊢
        obtain ⟨es', hh, rfl⟩ := pre_some h
        obtain ⟨c', st', h1, h2, h3⟩ := ih id (c := ⟨o1, id :: c.issued⟩) m1.wf
          ⟨r1.1, by rw [Cfg.view, r1.2]⟩ hh
        exact ⟨c', st', by rw [h1, pre_ok], m1.trans h2, h3⟩
    · rw [if_neg ht] at h
      cases h
  | cancel id k ih =>
    intro c st c1 c2 s es hw hr h
    obtain ⟨b, hb, rfl⟩ := hr.of
    simp only [Verif.Timer.exec] at h
    simp only [exec]
    by_cases ht : id = INVALID ∨ id ∈ c.issued
    · rw [if_pos ht] at h ⊢
      obtain ⟨⟨t1, x⟩, ha, h⟩ := Res.bind_eq_ok.1 h
      obtain ⟨o1, st1, e1, m1, r1, _⟩ := keep_ok (f := fun t => Verif.Timer.cancel t id)
        (t := c.t.view b) cancel_length hw ⟨hb, rfl⟩ ha
      obtain ⟨es', hh, rfl⟩ := pre_some h
      obtain ⟨c', st', h1, h2, h3⟩ := ih (c := { c with t := o1 }) m1.wf
        ⟨r1.1, by rw [Cfg.view, r1.2]⟩ hh
      exact ⟨c', st', by simp only [cancel, e1, Res.ok_bind, h1, pre_ok], m1.trans h2, h3⟩
    · rw [if_neg ht] at h
      cases h
  | clear k ih =>
    intro c st c1 c2 s es hw hr h
    obtain ⟨b, hb, rfl⟩ := hr.of
    simp only [Verif.Timer.exec] at h
    simp only [exec]
    obtain ⟨t1, ha, h⟩ := Res.bind_eq_ok.1 h
    obtain ⟨o1, st1, e1, m1, r1, _⟩ := keep_ok
      (f := fun t => do let t ← Verif.Timer.clear t; .ok (t, ()))
      (t := c.t.view b) (t' := t1) (r := ()) (fun _ => clear_length ha) hw ⟨hb, rfl⟩
      (by simp only [ha, Res.ok_bind])
    obtain ⟨es', hh, rfl⟩ := pre_some h
    obtain ⟨c', st', h1, h2, h3⟩ := ih (c := { c with t := o1 }) m1.wf
      ⟨r1.1, by rw [Cfg.view, r1.2]⟩ hh
    exact ⟨c', st', by simp only [clear, e1, Res.ok_bind, h1, pre_ok], m1.trans h2, h3⟩

theorem cells_ok {cb : σ → Nat → Nat → Nat → Prog σ} {head : Nat} :
    ∀ {n i base : Nat} {c : Cfg} {s : σ} {st : Mem} {c1 c2 : Verif.Timer.Cfg} {s2 : σ}
      {es : List Ev}, st.WF → RepC c st c1 →
    Verif.Timer.cells cb head n i base c1 s = .ok (some (c2, s2, es)) →
    ∃ c' st', cells cb head n i base c s st = .ok (some (c', s2, es), st') ∧
      Moves st st' c.t.list c'.t.list ∧ RepC c' st' c2 := by
  intro n
  induction n with
  | zero =>
    intro i base c s st c1 c2 s2 es hw hr h
    cases h
    exact ⟨c, st, rfl, .refl hw (load_valid hr.1), hr⟩
  | succ n ih =>
    intro i base c s st c1 c2 s2 es hw hr h
    obtain ⟨b, hb, rfl⟩ := hr.of
    simp only [Verif.Timer.cells] at h
    simp only [cells]
    obtain ⟨item, hi, h⟩ := Res.bind_eq_ok.1 h
    by_cases ht : item.timeout ≤ c.t.timestamp
    · rw [if_pos ht] at h
      obtain ⟨l, hl, h⟩ := Res.bind_eq_ok.1 h
      obtain ⟨x, hx, h⟩ := Res.bind_eq_ok.1 h
      have hv : visit (add32 base i) (c.t.view b) = .ok ({ c.t.view b with list := l }, item) := by
        simp only [visit, hi, Res.ok_bind, if_pos ht, hl]
      obtain ⟨o1, st1, e1, m1, r1, hts⟩ := keep_ok visit_length hw ⟨hb, rfl⟩ hv
      simp only [e1, Res.ok_bind]
      have ht' : item.timeout ≤ o1.timestamp := by rw [hts]; exact ht
      rw [if_pos ht']
      cases x with
      | none => cases h
      | some x =>
        obtain ⟨c3, s3, es3⟩ := x
        obtain ⟨es4, hh, rfl⟩ := pre_some h
        obtain ⟨c4, st4, h4, m4, r4⟩ := exec_ok (c := { c with t := o1 }) m1.wf
          ⟨r1.1, by rw [Cfg.view, r1.2]⟩ hx
        have hwheel : c4.t.wheel = c3.t.wheel := by
          rw [← r4.2]
        obtain ⟨c5, st5, h5, m5, r5⟩ := ih (base := mul32 c3.t.wheel head) m4.wf r4 hh
        refine ⟨c5, st5, ?_, (m1.trans m4).trans m5, r5⟩
        simp only [h4, Res.ok_bind, hwheel, h5, pre_ok]
    · rw [if_neg ht] at h
      have hv : visit (add32 base i) (c.t.view b) = .ok (c.t.view b, item) := by
        simp only [visit, hi, Res.ok_bind, if_neg ht]
      obtain ⟨o1, st1, e1, m1, r1, hts⟩ := keep_ok visit_length hw ⟨hb, rfl⟩ hv
      simp only [e1, Res.ok_bind]
      have ht' : ¬ item.timeout ≤ o1.timestamp := by rw [hts]; exact ht
      rw [if_neg ht']
      obtain ⟨c5, st5, h5, m5, r5⟩ := ih (c := { c with t := o1 }) m1.wf
        ⟨r1.1, by rw [Cfg.view, r1.2]⟩ h
      exact ⟨c5, st5, h5, m1.trans m5, r5⟩

theorem slots_ok {cb : σ → Nat → Nat → Nat → Prog σ} :
    ∀ {n head : Nat} {c : Cfg} {s : σ} {st : Mem} {c1 c2 : Verif.Timer.Cfg} {s2 : σ}
      {es : List Ev}, st.WF → RepC c st c1 →
    Verif.Timer.slots cb n head c1 s = .ok (some (c2, s2, es)) →
    ∃ c' st', slots cb n head c s st = .ok (some (c', s2, es), st') ∧
      Moves st st' c.t.list c'.t.list ∧ RepC c' st' c2 := by
  intro n
  induction n with
  | zero =>
    intro head c s st c1 c2 s2 es hw hr h
    cases h
    exact ⟨c, st, rfl, .refl hw (load_valid hr.1), hr⟩
  | succ n ih =>
    intro head c s st c1 c2 s2 es hw hr h
    simp only [Verif.Timer.slots] at h
    simp only [slots]
    obtain ⟨x, hx, h⟩ := Res.bind_eq_ok.1 h
    have hwheel : c.t.wheel = c1.t.wheel := by rw [← hr.2]
    cases x with
    | none => cases h
    | some x =>
      obtain ⟨c3, s3, es3⟩ := x
      obtain ⟨es4, hh, rfl⟩ := pre_some h
      obtain ⟨c4, st4, h4, m4, r4⟩ := cells_ok hw hr hx
      obtain ⟨c5, st5, h5, m5, r5⟩ := ih m4.wf r4 hh
      refine ⟨c5, st5, ?_, m4.trans m5, r5⟩
      simp only [hwheel, h4, Res.ok_bind, h5, pre_ok]

theorem step_ok {cb : σ → Nat → Nat → Nat → Prog σ} {c : Cfg} {s : σ} {op : Op σ} {st : Mem}
    {c1 c2 : Verif.Timer.Cfg} {s2 : σ} {es : List Ev} (hw : st.WF) (hr : RepC c st c1)
    (h : Verif.Timer.step cb c1 s op = .ok (some (c2, s2, es))) :
    ∃ c' st', step cb c s op st = .ok (some (c', s2, es), st') ∧
      Moves st st' c.t.list c'.t.list ∧ RepC c' st' c2 := by
  cases op with
  | call p => exact exec_ok hw hr h
  | timeout ts =>
    obtain ⟨b, hb, rfl⟩ := hr.of
    simp only [Verif.Timer.step] at h
    simp only [step]
    by_cases ht : c.t.timestamp ≤ ts ∧ ts < INVALID
    · rw [if_pos ht] at h ⊢
      obtain ⟨⟨r, w⟩, hx, h⟩ := Res.bind_eq_ok.1 h
      cases h
      simp only [Verif.Timer.timeout] at hx
      simp only [timeout]
      by_cases h0 : (if sub64 ts c.t.timestamp / TICK < WHEEL_COUNT
          then sub64 ts c.t.timestamp / TICK else WHEEL_COUNT) % W32 = 0
      · rw [if_pos h0] at hx ⊢
        cases hx
        exact ⟨c, st, rfl, .refl hw (load_valid hb), hb, rfl⟩
      · rw [if_neg h0] at hx ⊢
        obtain ⟨y, hy, hx⟩ := Res.bind_eq_ok.1 hx
        cases hx
        obtain ⟨es', hh, rfl⟩ := pre_some hy
        obtain ⟨c5, st5, h5, m5, r5⟩ := slots_ok (c := ⟨⟨ts, _, c.t.wheel, c.t.list⟩, c.issued⟩) hw ⟨hb, rfl⟩ hh
        exact ⟨c5, st5, by rw [h5, pre_ok], m5, r5⟩
    · rw [if_neg ht] at h
      cases h
  | term =>
    cases h
    obtain ⟨b, hb, rfl⟩ := hr.of
    obtain ⟨st', hf, hm⟩ := free_ok hw hb
    exact ⟨⟨⟨c.t.timestamp, 0, 0, none⟩, []⟩, st', by simp only [step, term, hf, Res.ok_bind], hm, rfl, rfl⟩

theorem act_ok {cb : σ → Nat → Nat → Nat → Prog σ} {o : Cfg × σ} {op : Op σ} {st : Mem}
    {b : List Cell} {v' : Verif.Timer.Cfg × σ} {es : List Ev} (hw : st.WF)
    (hb : load [] o.1.t.list st = .ok b) (h : actV cb (o.1.view b, o.2) op = .ok (v', es)) :
    ∃ o' st', act cb o op st = .ok ((o', es), st') ∧ Moves st st' o.1.t.list o'.1.t.list ∧
      load [] o'.1.t.list st' = .ok v'.1.t.list ∧ (o'.1.view v'.1.t.list, o'.2) = v' := by
  obtain ⟨r, hs, h⟩ := Res.bind_eq_ok.1 h
  cases r with
  | none => cases h
  | some r =>
    obtain ⟨c2, s2, es⟩ := r
    cases h
    obtain ⟨c', st', h1, h2, h3⟩ := step_ok (c := o.1) hw ⟨hb, rfl⟩ hs
    refine ⟨(c', s2), st', ?_, h2, h3.1, by rw [h3.2]⟩
    simp only [act, h1, Res.ok_bind]

theorem close_ok {o : Cfg × σ} {st : Mem} {b : List Cell} (hw : st.WF)
    (hb : load [] o.1.t.list st = .ok b) :
    ∃ o' st', close o st = .ok (o', st') ∧ o'.1.t.list = none ∧ Moves st st' o.1.t.list none := by
  obtain ⟨st', hf, hm⟩ := free_ok hw hb
  exact ⟨(⟨⟨o.1.t.timestamp, 0, 0, none⟩, []⟩, o.2), st',
    by simp only [close, term, hf, Res.ok_bind], rfl, hm⟩

/-- Timers take memory for themselves only, and give back all they no longer use. -/
theorem kind_sound (cb : σ → Nat → Nat → Nat → Prog σ) : (kind cb).Sound where
  init a st r hw h := by
    cases h
    exact ⟨some _, st, rfl, .refl hw (fun _ hi => (by cases hi)), [], rfl, rfl, trivial⟩
  step o op st v v' out hw hr h := by
    obtain ⟨b, hb, hv, -⟩ := hr
    cases hv
    obtain ⟨o', st', h1, h2, h3, h4⟩ := act_ok hw hb h
    exact ⟨o', st', h1, h2, _, h3, h4, trivial⟩
  term o st v hw hr := by
    obtain ⟨b, hb, hv, -⟩ := hr
    exact close_ok hw hb

end Verif.Memory.Timer
