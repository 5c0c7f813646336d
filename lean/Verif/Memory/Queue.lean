import Verif.Queue.Model
import Verif.Memory.Store

/-! # The memory of queues: `queue/sc_queue.h` with pointers -/

namespace Verif.Memory.Queue
open Verif.Queue

/-- `struct sc_queue_##name`, queue/sc_queue.h:55-63, with the pointer `elems`. -/
structure Obj where
  oom : Bool
  cap : Nat
  first : Nat
  last : Nat
  elems : Option Nat

/-- The queue of the model without memory: with the cells `elems` points to. -/
abbrev Obj.view (o : Obj) (b : List α) : Q α := ⟨o.oom, o.cap, o.first, o.last, b⟩

/-- `sc_queue_init`, queue/sc_queue.h:101-111. -/
def init (al : Alloc α) (st : Store (List α)) : Obj × Store (List α) :=
  match al with
  | none => (⟨true, 8, 0, 0, none⟩, st)
  | some fill =>
    let (i, st) := alloc (fresh 8 fill) st
    (⟨false, 8, 0, 0, some i⟩, st)

/-- `sc_queue_term`, queue/sc_queue.h:117-125. -/
def term (o : Obj) (st : Store (List α)) : Res (Obj × Store (List α)) := do
  let st ← free o.elems st
  .ok (⟨false, 0, 0, 0, none⟩, st)

/-- A function that neither allocates nor frees: it reads and writes the cells `elems` points
to and leaves the pointer alone. -/
def keep (f : Q α → Res (Q α × ρ)) (o : Obj) (st : Store (List α)) :
    Res ((Obj × ρ) × Store (List α)) := do
  let b ← load [] o.elems st
  let (q, r) ← f (o.view b)
  let st ← store q.elems o.elems st
  .ok ((⟨q.oom, q.cap, q.first, q.last, o.elems⟩, r), st)

/-- `memcpy` from the block of `src` to that of `dst`, other blocks, in cells. -/
def copy (dst : Nat) (d : Nat) (src : Option Nat) (s n : Nat) (st : Store (List α)) :
    Res (Store (List α)) := do
  let b ← load [] src st
  let xs ← slice b s n
  let c ← load [] (some dst) st
  let c ← blit c d xs
  store c (some dst) st

/-- `sc_queue_expand`, queue/sc_queue.h:65-95. -/
def expand (al : Alloc α) (o : Obj) (st : Store (List α)) : Res (Obj × Store (List α)) :=
  let pos := add64 o.last 1 &&& sub64 o.cap 1
  if pos = o.first then
    if o.cap > SIZE_MAX / 2 then .ok ({ o with oom := true }, st)
    else
      let cap := mul64 o.cap 2
      match al with
      | none => .ok ({ o with oom := true }, st)
      | some fill => do
        let (dst, st) := alloc (fresh cap fill) st
        let len := sub64 o.cap o.first
        let off := o.first
        let st ← copy dst 0 o.elems off len st
        let st ← copy dst len o.elems 0 off st
        let st ← free o.elems st
        .ok (⟨false, cap, 0, sub64 o.cap 1, some dst⟩, st)
  else .ok (o, st)

/-- `sc_queue_add_last` after the expansion, queue/sc_queue.h:209-214. -/
def pushLast (x : α) (q : Q α) : Res (Q α × Unit) := do
  if q.oom then return (q, ())
  let elems ← wr q.elems q.last x
  return ({ q with oom := false, elems := elems, last := add64 q.last 1 &&& sub64 q.cap 1 }, ())

/-- `sc_queue_add_first` after the expansion, queue/sc_queue.h:234-239. -/
def pushFirst (x : α) (q : Q α) : Res (Q α × Unit) := do
  if q.oom then return (q, ())
  let first := sub64 q.first 1 &&& sub64 q.cap 1
  let elems ← wr q.elems first x
  return ({ q with oom := false, elems := elems, first := first }, ())

/-- `sc_queue_add_last`, queue/sc_queue.h:206-215. -/
def addLast (al : Alloc α) (o : Obj) (x : α) (st : Store (List α)) :
    Res ((Obj × Unit) × Store (List α)) := do
  let (o, st) ← expand al o st
  keep (pushLast x) o st

/-- `sc_queue_add_first`, queue/sc_queue.h:231-240. -/
def addFirst (al : Alloc α) (o : Obj) (x : α) (st : Store (List α)) :
    Res ((Obj × Unit) × Store (List α)) := do
  let (o, st) ← expand al o st
  keep (pushFirst x) o st

/-- The API calls, queue/sc_queue.h:143-256. -/
def step (o : Obj) (op : Op α) (st : Store (List α)) :
    Res ((Obj × Option α) × Store (List α)) :=
  match op with
  | .addFirst x al => do let ((o, _), st) ← addFirst al o x st; .ok ((o, none), st)
  | .addLast x al => do let ((o, _), st) ← addLast al o x st; .ok ((o, none), st)
  | op => keep (fun q => Verif.Queue.step q op) o st

/-- Queues. -/
def kind (α : Type) : Kind where
  Obj := Obj
  Blk := List α
  View := Q α
  Arg := Alloc α
  Op := Op α
  Out := Option α
  null := []
  ptr o := o.elems
  view := Obj.view
  inv _ _ := True
  initP al st := .ok (some (init al st).1, (init al st).2)
  init al := .ok (some (Verif.Queue.init al))
  stepP := step
  step := Verif.Queue.step
  termP := term

theorem keep_ok {f : Q α → Res (Q α × ρ)}
    (hf : ∀ q q' r, f q = .ok (q', r) → q'.elems.length = q.elems.length) {o : Obj}
    {st : Store (List α)} {b : List α} {q' : Q α} {r : ρ} (hw : st.WF)
    (hb : load [] o.elems st = .ok b) (h : f (o.view b) = .ok (q', r)) :
    ∃ o' st', keep f o st = .ok ((o', r), st') ∧ Moves st st' o.elems o'.elems ∧
      load [] o'.elems st' = .ok q'.elems ∧ o'.view q'.elems = q' := by
  obtain ⟨st', hs, hm, hl⟩ := store_ok hw hb (hf _ _ _ h)
  exact ⟨⟨q'.oom, q'.cap, q'.first, q'.last, o.elems⟩, st', by simp [keep, hb, h, hs], hm, hl, rfl⟩

theorem blit_length {m m' xs : List α} {d : Nat} (h : blit m d xs = .ok m') :
    m'.length = m.length := by
  simp only [blit] at h
  split at h
  · cases h; simp only [List.length_append, List.length_take, List.length_drop]; omega
  · cases h

theorem copy_ok {st : Store (List α)} {dst d s n : Nat} {src : Option Nat} {b c c' xs : List α}
    (hw : st.WF) (hb : load [] src st = .ok b) (hc : load [] (some dst) st = .ok c)
    (hx : slice b s n = .ok xs) (hc' : blit c d xs = .ok c') :
    ∃ st', copy dst d src s n st = .ok st' ∧ Moves st st' (some dst) (some dst) ∧
      load [] (some dst) st' = .ok c' := by
  obtain ⟨st', hs, hm, hl⟩ := store_ok hw hc (blit_length hc')
  exact ⟨st', by simp only [copy, hb, hx, hc, hc', Res.ok_bind, hs], hm, hl⟩

theorem expand_ok {al : Alloc α} {o : Obj} {st : Store (List α)} {b : List α} {q' : Q α}
    (hw : st.WF) (hb : load [] o.elems st = .ok b)
    (h : Verif.Queue.expand al (o.view b) = .ok q') :
    ∃ o' st', expand al o st = .ok (o', st') ∧ Moves st st' o.elems o'.elems ∧
      load [] o'.elems st' = .ok q'.elems ∧ o'.view q'.elems = q' := by
  unfold Verif.Queue.expand at h
  unfold expand
  dsimp only [Obj.view] at h ⊢
  by_cases hc : add64 o.last 1 &&& sub64 o.cap 1 = o.first
  · rw [if_pos hc] at h ⊢
    by_cases hm : o.cap > SIZE_MAX / 2
    · rw [if_pos hm] at h ⊢
      cases h
      exact ⟨_, st, rfl, .refl hw (load_valid hb), hb, rfl⟩
    · rw [if_neg hm] at h ⊢
      cases al with
      | none =>
        cases h
        exact ⟨_, st, rfl, .refl hw (load_valid hb), hb, rfl⟩
      | some fill =>
        obtain ⟨head, hh, h⟩ := Res.bind_eq_ok.1 h
        obtain ⟨d1, hd1, h⟩ := Res.bind_eq_ok.1 h
        obtain ⟨tail, ht, h⟩ := Res.bind_eq_ok.1 h
        obtain ⟨d2, hd2, h⟩ := Res.bind_eq_ok.1 h
        cases h
        obtain ⟨hma, hla⟩ := alloc_ok [] (fresh (mul64 o.cap 2) fill) hw
        obtain ⟨hb1, -⟩ := replace_ok hb hma
        obtain ⟨st1, hc1, hm1, hl1⟩ := copy_ok hma.wf hb1 hla hh hd1
        have hma1 := hma.trans hm1
        obtain ⟨hb2, -⟩ := replace_ok hb hma1
        obtain ⟨st2, hc2, hm2, hl2⟩ := copy_ok hm1.wf hb2 hl1 ht hd2
        obtain ⟨-, st3, hf, hm3, hl3⟩ := replace_ok hb (hma1.trans hm2)
        refine ⟨⟨false, mul64 o.cap 2, 0, sub64 o.cap 1,
          some (alloc (fresh (mul64 o.cap 2) fill) st).1⟩, st3, ?_, hm3, ?_, rfl⟩
        · simp only [hc1, hc2, hf, Res.ok_bind]
        · rw [hl3, hl2]
  · rw [if_neg hc] at h ⊢
    cases h
    exact ⟨_, st, rfl, .refl hw (load_valid hb), hb, rfl⟩

theorem pushLast_length {x : α} (q q' : Q α) (r : Unit) (h : pushLast x q = .ok (q', r)) :
    q'.elems.length = q.elems.length := by
  simp only [pushLast] at h
  split at h
  · cases h; rfl
  · obtain ⟨e, he, h⟩ := Res.bind_eq_ok.1 h
    cases h
    rw [(wr_eq_ok.1 he).2]
    simp

theorem pushFirst_length {x : α} (q q' : Q α) (r : Unit) (h : pushFirst x q = .ok (q', r)) :
    q'.elems.length = q.elems.length := by
  simp only [pushFirst] at h
  split at h
  · cases h; rfl
  · obtain ⟨e, he, h⟩ := Res.bind_eq_ok.1 h
    cases h
    rw [(wr_eq_ok.1 he).2]
    simp

theorem addLast_eq (al : Alloc α) (q : Q α) (x : α) :
    Verif.Queue.addLast al q x = (do let q ← Verif.Queue.expand al q; Prod.fst <$> pushLast x q) := by
  simp only [Verif.Queue.addLast, pushLast]
  cases Verif.Queue.expand al q with
  | ub => rfl
  | ok q =>
    simp only [Res.ok_bind]
    split
    · rfl
    · cases wr q.elems q.last x <;> rfl

theorem addFirst_eq (al : Alloc α) (q : Q α) (x : α) :
    Verif.Queue.addFirst al q x =
      (do let q ← Verif.Queue.expand al q; Prod.fst <$> pushFirst x q) := by
  simp only [Verif.Queue.addFirst, pushFirst]
  cases Verif.Queue.expand al q with
  | ub => rfl
  | ok q =>
    simp only [Res.ok_bind]
    split
    · rfl
    · cases wr q.elems (sub64 q.first 1 &&& sub64 q.cap 1) x <;> rfl

theorem map_fst_ok {x : Res (Q α × Unit)} {q : Q α} (h : Prod.fst <$> x = .ok q) :
    x = .ok (q, ()) := by
  cases x with
  | ub => cases h
  | ok y => cases h; rfl

theorem step_length {op : Op α} (h1 : ∀ k al, op ≠ .addFirst k al) (h2 : ∀ k al, op ≠ .addLast k al)
    (q q' : Q α) (r : Option α) (h : Verif.Queue.step q op = .ok (q', r)) :
    q'.elems.length = q.elems.length := by
  cases op with
  | addFirst k al => exact absurd rfl (h1 k al)
  | addLast k al => exact absurd rfl (h2 k al)
  | delFirst =>
    obtain ⟨⟨_, _⟩, hd, h⟩ := Res.bind_eq_ok.1 h
    cases h
    obtain ⟨_, _, h⟩ := Res.bind_eq_ok.1 hd
    cases h
    rfl
  | delLast =>
    obtain ⟨⟨_, _⟩, hd, h⟩ := Res.bind_eq_ok.1 h
    cases h
    obtain ⟨_, _, h⟩ := Res.bind_eq_ok.1 hd
    cases h
    rfl
  | clear => cases h; rfl

theorem step_ok {o : Obj} {op : Op α} {st : Store (List α)} {b : List α} {q' : Q α}
    {r : Option α} (hw : st.WF) (hb : load [] o.elems st = .ok b)
    (h : Verif.Queue.step (o.view b) op = .ok (q', r)) :
    ∃ o' st', step o op st = .ok ((o', r), st') ∧ Moves st st' o.elems o'.elems ∧
      load [] o'.elems st' = .ok q'.elems ∧ o'.view q'.elems = q' := by
  by_cases h1 : ∃ k al, op = .addFirst k al
  · obtain ⟨k, al, rfl⟩ := h1
    obtain ⟨q, hq, h⟩ := Res.bind_eq_ok.1 h
    cases h
    rw [addFirst_eq] at hq
    obtain ⟨q1, hq1, hq⟩ := Res.bind_eq_ok.1 hq
    obtain ⟨o1, st1, e1, m1, l1, w1⟩ := expand_ok hw hb hq1
    have hq := map_fst_ok hq
    rw [← w1] at hq
    obtain ⟨o2, st2, e2, m2, l2, w2⟩ := keep_ok pushFirst_length m1.wf l1 hq
    exact ⟨o2, st2, by simp only [step, addFirst, e1, e2, Res.ok_bind], m1.trans m2, l2, w2⟩
  by_cases h2 : ∃ k al, op = .addLast k al
  · obtain ⟨k, al, rfl⟩ := h2
    obtain ⟨q, hq, h⟩ := Res.bind_eq_ok.1 h
    cases h
    rw [addLast_eq] at hq
    obtain ⟨q1, hq1, hq⟩ := Res.bind_eq_ok.1 hq
    obtain ⟨o1, st1, e1, m1, l1, w1⟩ := expand_ok hw hb hq1
    have hq := map_fst_ok hq
    rw [← w1] at hq
    obtain ⟨o2, st2, e2, m2, l2, w2⟩ := keep_ok pushLast_length m1.wf l1 hq
    exact ⟨o2, st2, by simp only [step, addLast, e1, e2, Res.ok_bind], m1.trans m2, l2, w2⟩
  obtain ⟨o', st', e, hm, l, w⟩ :=
    keep_ok (step_length (fun k al e => h1 ⟨k, al, e⟩) (fun k al e => h2 ⟨k, al, e⟩)) hw hb h
  refine ⟨o', st', ?_, hm, l, w⟩
  cases op with
  | addFirst k al => exact absurd ⟨k, al, rfl⟩ h1
  | addLast k al => exact absurd ⟨k, al, rfl⟩ h2
  | _ => exact e

/-- Queues take memory for themselves only, and give back all they no longer use. -/
theorem kind_sound (α : Type) : (kind α).Sound where
  init al st r hw h := by
    cases h
    cases al with
    | none => exact ⟨some _, st, rfl, .refl hw (fun _ hi => (by cases hi)), [], rfl, rfl, trivial⟩
    | some fill =>
      obtain ⟨hm, hl⟩ := alloc_ok [] (fresh 8 fill) hw
      exact ⟨some _, _, rfl, hm, _, hl, rfl, trivial⟩
  step o op st v v' out hw hr h := by
    obtain ⟨b, hb, hv, -⟩ := hr
    cases hv
    obtain ⟨o', st', h1, h2, h3, h4⟩ := step_ok hw hb h
    exact ⟨o', st', h1, h2, _, h3, h4, trivial⟩
  term o st v hw hr := by
    obtain ⟨b, hb, hv, -⟩ := hr
    obtain ⟨st', hf, hm⟩ := free_ok hw hb
    exact ⟨_, st', (by show term o st = _; unfold term; erw [hf]; rfl), rfl, hm⟩

end Verif.Memory.Queue
