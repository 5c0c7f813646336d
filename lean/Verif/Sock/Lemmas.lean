import Verif.Mmap.Props
import Verif.Sock.Model

/-! # Lemmas on sockets: what one call does -/

namespace Verif.Sock

open Ini (strncpy)
open Thread (Texts strncpy_short strncpy_long)
open Spec (Addr)

/-- What the environment can be relied on for: texts of errors are strings, new descriptors are not
in use and not negative, failures of `getaddrinfo` have a number, successes an address. -/
structure Laws (e : Env) : Prop where
  texts : Texts e.strerror
  gtexts : Texts e.gaiStr
  unused : ∀ l, e.newfd l ∉ l
  nonneg : ∀ l, 0 ≤ e.newfd l
  gaiErr : ∀ h p f n rc, e.gai h p f n = .error rc → rc ≠ 0
  gaiOk : ∀ h p f n, e.gai h p f n ≠ .ok []

/-- Errors have happened, the last of which is in `errno`, or none. -/
def Errs (e : Env) (os os' : Os) : Prop :=
  ∃ l, os'.fails = os.fails ++ l ∧ (l = [] ∧ os'.errno = os.errno ∨ e.strerror os'.errno ∈ l)

/-- A text of an error that has happened in between -/
def Recent (os os' : Os) (m : List UInt8) : Prop := ∃ l, os'.fails = os.fails ++ l ∧ m ∈ l

def Grown (os os' : Os) : Prop := ∃ l, os'.fails = os.fails ++ l

theorem Errs.refl {e : Env} {os : Os} : Errs e os os := ⟨[], by simp, .inl ⟨rfl, rfl⟩⟩

theorem Errs.trans {e : Env} {a b c : Os} (h : Errs e a b) (h' : Errs e b c) : Errs e a c := by
  obtain ⟨l, h1, h2⟩ := h
  obtain ⟨l', h3, h4⟩ := h'
  refine ⟨l ++ l', by rw [h3, h1, List.append_assoc], ?_⟩
  rcases h4 with ⟨rfl, h4⟩ | h4
  · rcases h2 with ⟨rfl, h2⟩ | h2
    · exact .inl ⟨rfl, h4.trans h2⟩
    · rw [h4]; exact .inr (by simpa using h2)
  · exact .inr (List.mem_append_right _ h4)

theorem Errs.grown {e : Env} {a b : Os} (h : Errs e a b) : Grown a b := ⟨_, h.choose_spec.1⟩

theorem Grown.trans {a b c : Os} (h : Grown a b) (h' : Grown b c) : Grown a c := by
  obtain ⟨l, h1⟩ := h
  obtain ⟨l', h3⟩ := h'
  exact ⟨l ++ l', by rw [h3, h1, List.append_assoc]⟩

theorem Recent.grown {a b : Os} {m : List UInt8} (h : Recent a b m) : Grown a b := ⟨_, h.choose_spec.1⟩

theorem Recent.before {a b c : Os} {m : List UInt8} (h : Grown a b) (h' : Recent b c m) : Recent a c m := by
  obtain ⟨l, h1⟩ := h
  obtain ⟨l', h3, h4⟩ := h'
  exact ⟨l ++ l', by rw [h3, h1, List.append_assoc], List.mem_append_right _ h4⟩

theorem Recent.after {a b c : Os} {m : List UInt8} (h : Recent a b m) (h' : Grown b c) : Recent a c m := by
  obtain ⟨l, h1, h2⟩ := h
  obtain ⟨l', h3⟩ := h'
  exact ⟨l ++ l', by rw [h3, h1, List.append_assoc], List.mem_append_left _ h2⟩

/-- Once an error has happened, the text of `errno` is that of one that has. -/
theorem Recent.errs {e : Env} {a b c : Os} (h : Recent a b (e.strerror b.errno)) (h' : Errs e b c) :
    Recent a c (e.strerror c.errno) := by
  obtain ⟨l, h1, h2⟩ := h
  obtain ⟨l', h3, h4⟩ := h'
  refine ⟨l ++ l', by rw [h3, h1, List.append_assoc], ?_⟩
  rcases h4 with ⟨rfl, h4⟩ | h4
  · rw [h4]; simpa using h2
  · exact List.mem_append_right _ h4

/-- A call that can fail: nothing changes but `errno` and the texts. -/
structure Tried (e : Env) (os : Os) (b : Bool) (os' : Os) : Prop where
  fds : os'.fds = os.fds
  errs : Errs e os os'
  bad : b = false → Recent os os' (e.strerror os'.errno)

theorem attempt_ok (e : Env) (os : Os) :
    Tried e os (attempt e os).1 (attempt e os).2 ∧ (attempt e os).2.log = os.log := by
  unfold attempt
  cases h : e.call os.n with
  | none =>
    exact ⟨⟨rfl, ⟨[], by simp, .inl ⟨rfl, rfl⟩⟩, by simp⟩, rfl⟩
  | some er =>
    exact ⟨⟨rfl, ⟨[e.strerror er], rfl, .inr (by simp [Os.failed])⟩, fun _ => ⟨[e.strerror er], rfl, by simp [Os.failed]⟩⟩, rfl⟩

theorem noted_ok (e : Env) (c : Call) (os : Os) :
    Tried e os (noted e c os).1 (noted e c os).2 ∧ (noted e c os).2.log = os.log ++ [c] := by
  obtain ⟨⟨h1, h2, h3⟩, h4⟩ := attempt_ok e { os with log := os.log ++ [c] }
  exact ⟨⟨h1, h2, h3⟩, h4⟩

/-- A new descriptor: the first of the list, and not in the rest. -/
structure Opened (os : Os) (fd : Int) (os' : Os) : Prop where
  fds : ∃ nb, os'.fds = ⟨fd, nb⟩ :: os.fds
  new : fd ∉ os.nums
  pos : 0 ≤ fd

theorem socket_ok {e : Env} (he : Laws e) (family type proto : Int) (os : Os) :
    ∃ r os', socket e family type proto os = (r, os') ∧ os'.log = os.log ++ [.socket family type proto] ∧
      Errs e os os' ∧
      (r = none → os'.fds = os.fds ∧ Recent os os' (e.strerror os'.errno)) ∧
      (∀ fd, r = some fd → Opened os fd os' ∧ os'.fds = ⟨fd, false⟩ :: os.fds) := by
  unfold socket
  have h := noted_ok e (.socket family type proto) os
  generalize noted e (.socket family type proto) os = r at h ⊢
  obtain ⟨b, os'⟩ := r
  obtain ⟨⟨h1, h2, h3⟩, h4⟩ := h
  have hn : os'.nums = os.nums := by simp only [Os.nums]; rw [h1]
  cases b with
  | false => exact ⟨_, _, rfl, h4, h2, fun _ => ⟨h1, h3 rfl⟩, by simp⟩
  | true =>
    refine ⟨_, _, rfl, h4, ?_, by simp, ?_⟩
    · obtain ⟨l, h5, h6⟩ := h2
      exact ⟨l, h5, h6⟩
    · intro fd hfd
      have hfd : e.newfd os'.nums = fd := by simpa using hfd
      subst hfd
      refine ⟨⟨⟨false, ?_⟩, ?_, he.nonneg _⟩, ?_⟩
      · simp only; rw [h1]
      · rw [← hn]; exact he.unused _
      · simp only; rw [h1]

theorem kaccept_ok {e : Env} (he : Laws e) (fd : Int) (os : Os) :
    ∃ r os', kaccept e fd os = (r, os') ∧ os'.log = os.log ++ [.accept fd] ∧
      Errs e os os' ∧
      (r = none → os'.fds = os.fds ∧ Recent os os' (e.strerror os'.errno)) ∧
      (∀ new, r = some new → Opened os new os') := by
  unfold kaccept
  have h := noted_ok e (.accept fd) os
  generalize noted e (.accept fd) os = r at h ⊢
  obtain ⟨b, os'⟩ := r
  obtain ⟨⟨h1, h2, h3⟩, h4⟩ := h
  have hn : os'.nums = os.nums := by simp only [Os.nums]; rw [h1]
  cases b with
  | false => exact ⟨_, _, rfl, h4, h2, fun _ => ⟨h1, h3 rfl⟩, by simp⟩
  | true =>
    refine ⟨_, _, rfl, h4, ?_, by simp, ?_⟩
    · obtain ⟨l, h5, h6⟩ := h2
      exact ⟨l, h5, h6⟩
    · intro fd hfd
      have hfd : e.newfd os'.nums = fd := by simpa using hfd
      subst hfd
      refine ⟨⟨e.inherits os'.n, ?_⟩, ?_, he.nonneg _⟩
      · simp only; rw [h1]
      · rw [← hn]; exact he.unused _

/-- The descriptor is the first of the list. -/
structure Top (os : Os) (fd : Int) (rest : List Fd) : Prop where
  fds : ∃ nb, os.fds = ⟨fd, nb⟩ :: rest
  new : fd ∉ rest.map Fd.num
  pos : 0 ≤ fd

theorem Opened.top {os os' : Os} {fd : Int} (h : Opened os fd os') : Top os' fd os.fds := ⟨h.fds, h.new, h.pos⟩

theorem Top.of_fds {os os' : Os} {fd : Int} {rest : List Fd} (h : Top os fd rest) (he : os'.fds = os.fds) :
    Top os' fd rest := ⟨by rw [he]; exact h.fds, h.new, h.pos⟩

theorem filter_top {rest : List Fd} {fd : Int} (h : fd ∉ rest.map Fd.num) :
    rest.filter (fun f => f.num ≠ fd) = rest := by
  apply List.filter_eq_self.2
  intro f hf
  simp only [decide_eq_true_eq, ne_eq]
  intro he
  exact h (List.mem_map.2 ⟨f, hf, he⟩)

/-- Closing the descriptor at the top leaves the rest. -/
theorem sockClose_ok {e : Env} {os : Os} {s : Sock} {rest : List Fd} (h : Top os s.fd rest) :
    ∃ rc os', sockClose e os s = .ok (rc, os', { s with fd := -1 }) ∧ os'.fds = rest ∧ Errs e os os' ∧
      os'.log = os.log ∧ (rc = 0 ∨ rc = -1 ∧ Recent os os' (e.strerror os'.errno)) := by
  unfold sockClose
  have hpos := h.pos
  rw [if_pos (show s.fd ≠ -1 by omega)]
  obtain ⟨nb, hf⟩ := h.fds
  have hm : s.fd ∈ os.nums := by simp [Os.nums, hf]
  have hrest : os.fds.filter (fun f => f.num ≠ s.fd) = rest := by
    rw [hf, List.filter_cons_of_neg (by simp)]
    exact filter_top h.new
  unfold kclose
  rw [if_pos hm]
  simp only [Res.ok_bind]
  have ha := attempt_ok e { os with fds := os.fds.filter (fun f => f.num ≠ s.fd) }
  generalize attempt e { os with fds := os.fds.filter (fun f => f.num ≠ s.fd) } = r at ha ⊢
  obtain ⟨b, os'⟩ := r
  obtain ⟨⟨h1, h2, h3⟩, h4⟩ := ha
  refine ⟨_, _, rfl, h1.trans hrest, h2, h4, ?_⟩
  cases b with
  | false => exact .inr ⟨rfl, h3 rfl⟩
  | true => exact .inl rfl

theorem sockClose_none {e : Env} {os : Os} {s : Sock} (h : s.fd = -1) :
    sockClose e os s = .ok (0, os, s) := by
  unfold sockClose
  rw [if_neg (by simpa using h)]

/-- The text shows the message, cut to 127 bytes. -/
def Shows (err m : List UInt8) : Prop :=
  ∃ t, CStr m 0 t ∧ ∃ err', wr err 127 0 = .ok err' ∧ CStr err' 0 (t.take 127)

theorem shows_strncpy {err m : List UInt8} (hl : err.length = 128) (hm : ∃ t, CStr m 0 t) :
    ∃ err', strncpy err m 0 (128 - 1) = .ok err' ∧ err'.length = 128 ∧ Shows err' m := by
  obtain ⟨t, ht⟩ := hm
  by_cases hs : t.length < 127
  · obtain ⟨d, h1, h2, h3⟩ := strncpy_short ht (n := 127) (dst := err) (by omega) hs
    refine ⟨d, h1, by omega, ?_⟩
    refine ⟨t, ht, _, wr_lt (by omega), ?_⟩
    rw [List.take_of_length_le (by omega)]
    refine ⟨?_, h2.nonzero, ?_⟩
    · intro i hi
      rw [List.getElem?_set_ne (by omega)]
      exact h2.bytes i hi
    · rw [List.getElem?_set_ne (by omega)]
      exact h2.nul
  · obtain ⟨d, h1, h2, h3, h4⟩ := strncpy_long ht (n := 127) (dst := err) (by omega) (by omega)
    refine ⟨d, h1, by omega, ?_⟩
    refine ⟨t, ht, _, wr_lt (by omega), ?_⟩
    have hlen : (t.take 127).length = 127 := by simp; omega
    refine ⟨?_, fun b hb => ht.nonzero b (List.mem_of_mem_take hb), ?_⟩
    · intro i hi
      rw [hlen] at hi
      rw [List.getElem?_set_ne (by omega)]
      have := congrArg (fun l => l[i]?) h3
      simp only [List.getElem?_take, hi, if_true] at this
      simp only [Nat.zero_add, this, List.getElem_take]
      rw [List.getElem?_eq_getElem (by omega)]
    · rw [hlen]
      simp [h2, hl]

theorem errstr_ok {e : Env} (he : Laws e) {g : Int} {os : Os} {s : Sock} (hl : s.err.length = 128) :
    ∃ err, errstr e g os s = .ok { s with err := err } ∧ err.length = 128 ∧
      Shows err (if g ≠ 0 then e.gaiStr g else e.strerror os.errno) := by
  unfold errstr
  have hm : ∃ t, CStr (if g ≠ 0 then e.gaiStr g else e.strerror os.errno) 0 t := by
    split
    · exact he.gtexts g
    · exact he.texts _
  obtain ⟨d, h1, h2, h3⟩ := shows_strncpy hl hm
  simp only
  rw [h1]
  exact ⟨d, rfl, h2, h3⟩

/-- A failed call: the descriptors are the old ones, the object has none, and its text is that of an
error of this call. `s` is the object as it was. -/
structure Failed (os : Os) (s : Sock) (os' : Os) (s' : Sock) : Prop where
  fds : os'.fds = os.fds
  fd : s'.fd = -1
  len : s'.err.length = 128
  text : ∃ m, Recent os os' m ∧ Shows s'.err m
  blocking : s'.blocking = s.blocking
  op : s'.op = s.op

/-- Leaving with an error closes what was opened. -/
theorem giveUp_ok {e : Env} (he : Laws e) {os₀ os : Os} {s₀ s : Sock} (hl : s.err.length = 128)
    (ht : Top os s.fd os₀.fds ∨ os.fds = os₀.fds ∧ s.fd = -1)
    (hr : Recent os₀ os (e.strerror os.errno)) (hb : s.blocking = s₀.blocking) (ho : s.op = s₀.op) :
    ∃ os' s', giveUp e os s = .ok (-1, os', s') ∧ Failed os₀ s₀ os' s' ∧ os'.log = os.log ∧ s'.family = s.family := by
  unfold giveUp
  obtain ⟨err, h1, h2, h3⟩ := errstr_ok he (g := 0) (os := os) hl
  rw [h1]
  simp only [Res.ok_bind]
  rcases ht with ht | ⟨hf, hs⟩
  · obtain ⟨rc, os', h4, h5, h6, h7, -⟩ := sockClose_ok (e := e) (s := { s with err := err }) ht
    rw [h4]
    refine ⟨_, _, rfl, ⟨h5, rfl, h2, ⟨_, hr.after h6.grown, ?_⟩, hb, ho⟩, h7, rfl⟩
    simpa using h3
  · rw [sockClose_none (by exact hs)]
    refine ⟨_, _, rfl, ⟨hf, hs, h2, ⟨_, hr, ?_⟩, hb, ho⟩, rfl, rfl⟩
    simpa using h3

/-! ## Steps with the descriptor at the top -/

/-- Steps that keep the descriptor at the top: what was asked for, and, if all went well and `nb` is
given, the mode. -/
structure Steps (e : Env) (os : Os) (fd : Int) (rest : List Fd) (b : Bool) (os' : Os) (calls : List Call) : Prop where
  top : Top os' fd rest
  errs : Errs e os os'
  bad : b = false → Recent os os' (e.strerror os'.errno)
  log : b = true → os'.log = os.log ++ calls
  part : b = false → ∃ l, l ≠ [] ∧ l <+: calls ∧ os'.log = os.log ++ l

theorem Steps.refl {e : Env} {os : Os} {fd : Int} {rest : List Fd} (h : Top os fd rest) :
    Steps e os fd rest true os [] := ⟨h, .refl, by simp, by simp, by simp⟩

theorem noted_steps {e : Env} {c : Call} {os : Os} {fd : Int} {rest : List Fd} (h : Top os fd rest) :
    Steps e os fd rest (noted e c os).1 (noted e c os).2 [c] := by
  obtain ⟨⟨h1, h2, h3⟩, h4⟩ := noted_ok e c os
  exact ⟨h.of_fds h1, h2, h3, fun _ => h4, fun _ => ⟨[c], by simp, List.prefix_refl _, h4⟩⟩

theorem Steps.andThen {e : Env} {os : Os} {fd : Int} {rest : List Fd} {r : Bool × Os} {c c' : List Call}
    {f : Os → Bool × Os} (h : Steps e os fd rest r.1 r.2 c)
    (hf : ∀ os', Top os' fd rest → Steps e os' fd rest (f os').1 (f os').2 c') :
    Steps e os fd rest (andThen r f).1 (andThen r f).2 (c ++ c') := by
  obtain ⟨b, os'⟩ := r
  cases b with
  | false =>
    refine ⟨h.top, h.errs, h.bad, ?_, ?_⟩
    · intro hb; exact absurd hb (by simp [Sock.andThen])
    · intro _
      obtain ⟨l, h1, h2, h3⟩ := h.part rfl
      exact ⟨l, h1, h2.trans (List.prefix_append _ _), h3⟩
  | true =>
    have h' := hf os' h.top
    show Steps e os fd rest (f os').1 (f os').2 (c ++ c')
    refine ⟨h'.top, h.errs.trans h'.errs, fun hb => (h'.bad hb).before h.errs.grown, ?_, ?_⟩
    · intro hb
      rw [h'.log hb, h.log rfl, List.append_assoc]
    · intro hb
      obtain ⟨l, h1, h2, h3⟩ := h'.part hb
      refine ⟨c ++ l, by simp [h1], ?_, ?_⟩
      · exact (List.prefix_append_right_inj c).2 h2
      · rw [h3, h.log rfl, List.append_assoc]

theorem setBlocking_steps {e : Env} {blocking : Bool} {os : Os} {fd : Int} {rest : List Fd} (h : Top os fd rest) :
    Steps e os fd rest (setBlocking e fd blocking os).1 (setBlocking e fd blocking os).2
      [.getfl fd, .setfl fd (!blocking)] ∧
    ((setBlocking e fd blocking os).1 = true → (setBlocking e fd blocking os).2.fds = ⟨fd, !blocking⟩ :: rest) := by
  have hnb : (if blocking then false else true) = !blocking := by cases blocking <;> rfl
  unfold setBlocking
  simp only [hnb]
  have h1 := noted_steps (e := e) (c := .getfl fd) h
  generalize noted e (.getfl fd) os = r at h1 ⊢
  obtain ⟨b, os'⟩ := r
  cases b with
  | false =>
    constructor
    · refine ⟨h1.top, h1.errs, h1.bad, ?_, ?_⟩
      · intro hb; exact absurd hb (by simp [andThen])
      · intro _
        obtain ⟨l, h2, h3, h4⟩ := h1.part rfl
        exact ⟨l, h2, h3.trans (List.prefix_append [_] [_]), h4⟩
    · intro hb; exact absurd hb (by simp [andThen])
  | true =>
    have h2 := noted_steps (e := e) (c := .setfl fd (!blocking)) h1.top
    simp only [andThen, if_true]
    generalize noted e (.setfl fd (!blocking)) os' = r at h2 ⊢
    obtain ⟨b, os''⟩ := r
    have hl := h1.log rfl
    cases b with
    | false =>
      constructor
      · refine ⟨h2.top, h1.errs.trans h2.errs, fun hb => (h2.bad hb).before h1.errs.grown, by simp, ?_⟩
        intro _
        obtain ⟨l, h3, h4, h5⟩ := h2.part rfl
        exact ⟨.getfl fd :: l, by simp, by simpa using h4, by rw [h5, hl]; simp⟩
      · simp
    | true =>
      obtain ⟨nb, hf⟩ := h2.top.fds
      have hmap : os''.fds.map (fun f => if f.num = fd then { f with nonblock := !blocking } else f) =
          ⟨fd, !blocking⟩ :: rest := by
        rw [hf, List.map_cons, if_pos rfl]
        congr 1
        conv => rhs; rw [← List.map_id rest]
        apply List.map_congr_left
        intro f hf
        rw [if_neg]
        · rfl
        · intro he
          exact h.new (List.mem_map.2 ⟨f, hf, he⟩)
      refine ⟨⟨⟨⟨_, hmap⟩, h.new, h.pos⟩, ?_, by simp, ?_, by simp⟩, fun _ => hmap⟩
      · obtain ⟨l, h6, h7⟩ := h1.errs.trans h2.errs
        exact ⟨l, h6, h7⟩
      · intro _
        show os''.log = _
        rw [h2.log rfl, hl]
        simp

/-- Steps after the mode has been set keep it. -/
theorem andThen_fds {e : Env} {c : Call} {r : Bool × Os} {l : List Fd}
    (h : r.1 = true → r.2.fds = l) (hb : (andThen r (noted e c)).1 = true) :
    (andThen r (noted e c)).2.fds = l := by
  obtain ⟨b, os⟩ := r
  cases b with
  | false => simp [andThen] at hb
  | true =>
    show (noted e c os).2.fds = l
    rw [(noted_ok e c os).1.fds]
    exact h rfl

end Verif.Sock
