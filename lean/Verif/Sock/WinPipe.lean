/-!
# Model of socket/sc_sock.c: pipes on Windows

A pipe is a connection of two sockets over the loopback interface. The system gives out descriptors that are not in use, in
any order.
-/

namespace Verif.Sock.WinPipe

/-- Whether the n-th call succeeds, and the descriptor it gives out, if it makes one, while some are open -/
structure Env where
  ok : Nat → Bool
  fd : Nat → List Nat → Nat

/-- Descriptors that are open, and the number of calls so far -/
structure World where
  opened : List Nat
  n : Nat
  deriving DecidableEq

/-- `struct sc_sock_pipe`: `fds`, `none` for `SC_INVALID` -/
structure Pipe where
  r : Option Nat
  w : Option Nat
  deriving DecidableEq

/-- A call that makes a descriptor -/
def make (e : Env) (s : World) : Option Nat × World :=
  if e.ok s.n then (some (e.fd s.n s.opened), ⟨e.fd s.n s.opened :: s.opened, s.n + 1⟩) else (none, { s with n := s.n + 1 })

/-- A call that does not -/
def call (e : Env) (s : World) : Bool × World := (e.ok s.n, { s with n := s.n + 1 })

/-- `closesocket`; the descriptor is free whatever it returns. -/
def close (e : Env) (d : Nat) (s : World) : Bool × World := (e.ok s.n, ⟨s.opened.erase d, s.n + 1⟩)

/-- Calls in a row, up to the first that fails -/
def calls (e : Env) : Nat → World → Bool × World
  | 0, s => (true, s)
  | k + 1, s =>
    let (ok, s) := call e s
    if ok then calls e k s else (false, s)

/-- `sc_sock_pipe_init`, socket/sc_sock.c:878-954: `setsockopt`, `bind`, `getsockname` and `listen` on the listening socket,
`setsockopt` and `connect` on the writing end, `accept` for the reading end -/
def init (e : Env) (s : World) : Int × Pipe × World :=
  match make e s with
  | (none, s) => (-1, ⟨none, none⟩, s)
  | (some listener, s) =>
    match calls e 4 s with
    | (false, s) => (-1, ⟨none, none⟩, s)
    | (true, s) =>
      match make e s with
      | (none, s) => (-1, ⟨none, none⟩, s)
      | (some w, s) =>
        match calls e 2 s with
        | (false, s) => (-1, ⟨none, some w⟩, s)
        | (true, s) =>
          match make e s with
          | (none, s) => (-1, ⟨none, some w⟩, s)
          | (some r, s) =>
            let (_, s) := close e listener s
            (0, ⟨some r, some w⟩, s)

/-- `sc_sock_pipe_term`, socket/sc_sock.c:956-982. A writing end that is not there is not closed. -/
def term (e : Env) (p : Pipe) (s : World) : Int × Pipe × World :=
  match p.r with
  | none => (0, p, s)
  | some r =>
    let (ok1, s) := close e r s
    let (ok2, s) := match p.w with
      | some w => close e w s
      | none => call e s
    (if ok1 && ok2 then 0 else -1, ⟨none, none⟩, s)

/-- Destroying a pipe with both ends tries to close both, whatever happens to the first, and returns 0 exactly if
both could be closed, otherwise −1; the pipe has no ends then, and destroying it again does nothing. -/
theorem term_result (e : Env) (r w : Nat) (s : World) :
    ∃ ok1 s1 ok2 s2, close e r s = (ok1, s1) ∧ close e w s1 = (ok2, s2) ∧
      term e ⟨some r, some w⟩ s = (if ok1 = true ∧ ok2 = true then 0 else -1, ⟨none, none⟩, s2) ∧
      ∀ e' s', term e' (term e ⟨some r, some w⟩ s).2.1 s' = (0, ⟨none, none⟩, s') := by
  refine ⟨_, _, _, _, rfl, rfl, ?_, fun _ _ => rfl⟩
  simp only [term, Bool.and_eq_true]
  rfl

theorem calls_opened (e : Env) : ∀ k s, (calls e k s).2.opened = s.opened
  | 0, _ => rfl
  | k + 1, s => by
    unfold calls call
    simp only
    split
    · exact calls_opened e k _
    · rfl

/-- Making a pipe returns 0 or −1, and it returns 0 exactly if the pipe has both ends; the reading end, which is made last,
is there exactly then. -/
theorem init_result (e : Env) (s : World) :
    ((init e s).1 = 0 ∨ (init e s).1 = -1) ∧
    ((init e s).1 = 0 ↔ (init e s).2.1.r.isSome ∧ (init e s).2.1.w.isSome) ∧
    ((init e s).1 = -1 ↔ (init e s).2.1.r = none) := by
  unfold init
  repeat' split
  all_goals simp

/-- Descriptors given out are not in use. -/
def Fresh (e : Env) : Prop := ∀ n l, e.fd n l ∉ l

/-- A pipe that was made has two descriptors, and nothing else is left open; destroying it leaves none. -/
theorem init_ok_partial {e : Env} {s s' : World} {p : Pipe} (hf : Fresh e) (h : init e s = (0, p, s')) :
    ∃ r w, p = ⟨some r, some w⟩ ∧ s'.opened = [r, w] ++ s.opened ∧ r ≠ w ∧
      ∀ e' s'', (term e' p { s' with n := s'' }).2.2.opened = s.opened ∧ (term e' p { s' with n := s'' }).2.1 = ⟨none, none⟩ := by
  unfold init make at h
  split at h
  · cases h
  · next listener s1 h1 =>
    split at h1
    · cases h1
      split at h
      · cases h
      · next s2 h2 =>
        have o2 := calls_opened e 4 ⟨e.fd s.n s.opened :: s.opened, s.n + 1⟩
        rw [h2] at o2
        simp only at o2
        split at h
        · cases h
        · next w s3 h3 =>
          split at h3
          · cases h3
            split at h
            · cases h
            · next s4 h4 =>
              have o4 := calls_opened e 2 ⟨e.fd s2.n s2.opened :: s2.opened, s2.n + 1⟩
              rw [h4] at o4
              simp only at o4
              split at h
              · cases h
              · next r s5 h5 =>
                split at h5
                · cases h5
                  simp only [close, Prod.mk.injEq, true_and] at h
                  obtain ⟨rfl, rfl⟩ := h
                  have f1 := hf s2.n s2.opened
                  have f2 := hf s4.n s4.opened
                  revert f1 f2
                  generalize e.fd s4.n s4.opened = r
                  generalize hw : e.fd s2.n s2.opened = w
                  intro f1 f2
                  rw [hw] at o4
                  rw [o4, o2] at f2
                  rw [o2] at f1
                  revert f1 f2 o2
                  generalize e.fd s.n s.opened = l
                  intro o2 f1 f2
                  simp only [List.mem_cons, not_or] at f1 f2
                  have hop : (r :: s4.opened).erase l = [r, w] ++ s.opened := by
                    rw [o4, o2]
                    simp [f1.1, f2.2.1]
                  refine ⟨_, _, rfl, hop, f2.1, ?_⟩
                  intro e' s''
                  unfold term close
                  simp only [and_true]
                  rw [hop]
                  simp
                · cases h5
          · cases h3
    · cases h1

/-- A descriptor above all that are open -/
def above (l : List Nat) : Nat := l.foldr (fun a b => max (a + 1) b) 3

theorem above_fresh (l : List Nat) : above l ∉ l := by
  have : ∀ a ∈ l, a < above l := by
    intro a ha
    induction l with
    | nil => cases ha
    | cons b l ih =>
      show a < max (b + 1) (above l)
      rcases List.mem_cons.1 ha with rfl | h
      · omega
      · have := ih h; omega
  exact fun h => absurd (this _ h) (by omega)

/-- A pipe that could not be made leaves its listening socket open... -/
theorem leak_violated : ∃ (e : Env) (p : Pipe) (s' : World), Fresh e ∧ init e ⟨[], 0⟩ = (-1, p, s') ∧ s'.opened ≠ [] :=
  ⟨⟨fun n => n == 0, fun _ l => above l⟩, _, _, fun _ => above_fresh, rfl, by decide⟩

/-- ... or two sockets, which destroying it does not close. -/
theorem leak_two_violated : ∃ (e : Env) (p : Pipe) (s' : World), Fresh e ∧ init e ⟨[], 0⟩ = (-1, p, s') ∧ s'.opened.length = 2 ∧
    ∀ e', (term e' p s').2.2.opened = s'.opened :=
  ⟨⟨fun n => decide (n < 8), fun _ l => above l⟩, _, _, fun _ => above_fresh, rfl, by decide, fun _ => rfl⟩

/-- It never leaves more. -/
theorem leak_bound (e : Env) (s : World) : (init e s).2.2.opened.length ≤ s.opened.length + 2 := by
  unfold init make
  split
  · next s1 h1 =>
    split at h1
    · cases h1
    · cases h1; simp
  · next listener s1 h1 =>
    split at h1
    · cases h1
      have o2 := calls_opened e 4 ⟨e.fd s.n s.opened :: s.opened, s.n + 1⟩
      split
      · next s2 h2 => rw [h2] at o2; simp only at o2 ⊢; rw [o2]; simp
      · next s2 h2 =>
        rw [h2] at o2
        simp only at o2
        split
        · next s3 h3 =>
          split at h3
          · cases h3
          · cases h3; simp only; rw [o2]; simp
        · next w s3 h3 =>
          split at h3
          · cases h3
            have o4 := calls_opened e 2 ⟨e.fd s2.n s2.opened :: s2.opened, s2.n + 1⟩
            split
            · next s4 h4 => rw [h4] at o4; simp only at o4 ⊢; rw [o4, o2]; simp
            · next s4 h4 =>
              rw [h4] at o4
              simp only at o4
              split
              · next s5 h5 =>
                split at h5
                · cases h5
                · cases h5; simp only; rw [o4, o2]; simp
              · next r s5 h5 =>
                split at h5
                · cases h5
                  simp only [close]
                  rw [List.length_erase_of_mem (by rw [o4, o2]; simp), o4, o2]
                  simp
                · cases h5
          · cases h3
    · cases h1

example : init ⟨fun _ => true, fun _ l => above l⟩ ⟨[3], 0⟩ = (0, ⟨some 6, some 5⟩, ⟨[6, 5, 3], 10⟩) := by decide

end Verif.Sock.WinPipe
