import Verif.Sock.Connect

/-! # Properties of sockets: descriptors, modes, paths and texts -/

namespace Verif.Sock

open Spec (Addr Event pathName)

/-! ## Histories -/

/-- All socket objects, by number, and the system -/
structure State where
  socks : Nat → Sock
  os : Os

def State.set (σ : State) (i : Nat) (s : Sock) (os : Os) : State :=
  ⟨fun j => if j = i then s else σ.socks j, os⟩

/-- What the objects hold -/
def State.held (σ : State) : Spec.State := fun i => if (σ.socks i).fd = -1 then none else some (σ.socks i).fd

/-- One call. Objects are initialised, listen and connect when they have no descriptor, and accept
into one that has none. -/
inductive Step (e : Env) : State → Event → State → Prop
  | init {σ i blocking family} : (σ.socks i).fd = -1 → Step e σ .other (σ.set i (init blocking family) σ.os)
  | listen {σ i host port rc os s} : (σ.socks i).fd = -1 → GoodHost host (σ.socks i).family →
    listen e host port σ.os (σ.socks i) = .ok (rc, os, s) →
    Step e σ (if rc = 0 then .opened i s.fd else .other) (σ.set i s os)
  | connect {σ i dst dstPort src srcPort rc os s} : (σ.socks i).fd = -1 → GoodHost dst (σ.socks i).family →
    connect e dst dstPort src srcPort σ.os (σ.socks i) = .ok (rc, os, s) →
    Step e σ (if s.fd = -1 then .other else .opened i s.fd) (σ.set i s os)
  | accept {σ i j rc os s inn} : i ≠ j → (σ.socks j).fd = -1 →
    accept e σ.os (σ.socks i) (σ.socks j) = .ok (rc, os, s, inn) →
    Step e σ (if rc = 0 then .opened j inn.fd else .other) ((σ.set i s os).set j inn os)
  | term {σ i rc os s} : term e σ.os (σ.socks i) = .ok (rc, os, s) → Step e σ (.closed i) (σ.set i s os)
  | finish {σ i rc os s} : finishConnect e σ.os (σ.socks i) = .ok (rc, os, s) → Step e σ .other (σ.set i s os)
  | error {σ i s} : error (σ.socks i) = .ok s → Step e σ .other (σ.set i s σ.os)

inductive Runs (e : Env) : State → List Event → State → Prop
  | refl {σ} : Runs e σ [] σ
  | step {σ σ' σ'' ev es} : Runs e σ es σ' → Step e σ' ev σ'' → Runs e σ (es ++ [ev]) σ''

/-- Objects that have been initialised, and a system in which each open descriptor is open once. -/
structure Start (σ : State) : Prop where
  fresh : ∀ i, ∃ blocking family, σ.socks i = init blocking family
  nodup : σ.os.nums.Nodup

/-- What is known when `base` is open for other reasons. -/
structure Inv (base : List Fd) (σ : State) : Prop where
  len : ∀ i, (σ.socks i).err.length = 128
  fd : ∀ i, (σ.socks i).fd = -1 ∨ 0 ≤ (σ.socks i).fd
  inj : ∀ i j, (σ.socks i).fd = (σ.socks j).fd → (σ.socks i).fd = -1 ∨ i = j
  nodup : σ.os.nums.Nodup
  old : ∀ f ∈ base, f ∈ σ.os.fds
  own : ∀ f ∈ σ.os.fds, f ∈ base ∨ ∃ i, (σ.socks i).fd = f.num ∧ f.num ≠ -1
  opened : ∀ i, (σ.socks i).fd ≠ -1 → (σ.socks i).fd ∈ σ.os.nums ∧ (σ.socks i).fd ∉ base.map Fd.num

theorem mem_nums {os : Os} {f : Fd} (h : f ∈ os.fds) : f.num ∈ os.nums := List.mem_map.2 ⟨f, h, rfl⟩

/-- A step that opens one descriptor for an object. -/
theorem Inv.open {base : List Fd} {σ : State} (h : Inv base σ) {i : Nat} (hi : (σ.socks i).fd = -1) {os : Os} {s : Sock}
    (hl : s.err.length = 128) {nb : Bool} (hf : os.fds = ⟨s.fd, nb⟩ :: σ.os.fds) (hn : s.fd ∉ σ.os.nums) (hp : 0 ≤ s.fd) :
    Inv base (σ.set i s os) ∧ Spec.Step σ.held (.opened i s.fd) (σ.set i s os).held := by
  have hnums : os.nums = s.fd :: σ.os.nums := by simp [Os.nums, hf]
  have hbase : s.fd ∉ base.map Fd.num := by
    intro hm
    obtain ⟨f, hf', he⟩ := List.mem_map.1 hm
    exact hn (he ▸ mem_nums (h.old f hf'))
  have hne : ∀ j, (σ.socks j).fd ≠ s.fd := by
    intro j he
    rcases h.fd j with hj | hj
    · omega
    · exact hn (he ▸ (h.opened j (by omega)).1)
  refine ⟨⟨?_, ?_, ?_, ?_, ?_, ?_, ?_⟩, ?_⟩
  · intro j; by_cases hj : j = i <;> simp [State.set, hj, hl, h.len]
  · intro j; by_cases hj : j = i
    · simp [State.set, hj, hp]
    · simp only [State.set, hj, if_false]; exact h.fd j
  · intro j k
    simp only [State.set]
    by_cases hj : j = i <;> by_cases hk : k = i
    · intro _; right; rw [hj, hk]
    · simp only [hj, hk, if_true, if_false]; intro he; exact absurd he.symm (hne k)
    · simp only [hj, hk, if_true, if_false]; intro he; exact absurd he (hne j)
    · simp only [hj, hk, if_false]; exact h.inj j k
  · show os.nums.Nodup
    rw [hnums]; exact List.nodup_cons.2 ⟨hn, h.nodup⟩
  · intro f hf'
    show f ∈ os.fds
    rw [hf]; exact List.mem_cons_of_mem _ (h.old f hf')
  · intro f hf'
    have hf' : f ∈ os.fds := hf'
    rw [hf] at hf'
    rcases List.mem_cons.1 hf' with rfl | hf'
    · exact .inr ⟨i, by simp [State.set], by simp; omega⟩
    · rcases h.own f hf' with hb | ⟨j, h1, h2⟩
      · exact .inl hb
      · refine .inr ⟨j, ?_, h2⟩
        have : j ≠ i := by rintro rfl; omega
        simp [State.set, this, h1]
  · intro j
    by_cases hj : j = i
    · simp only [State.set, hj, if_true]
      intro _
      exact ⟨by rw [hnums]; simp, hbase⟩
    · simp only [State.set, hj, if_false]
      intro hx
      obtain ⟨h1, h2⟩ := h.opened j hx
      exact ⟨by rw [hnums]; exact List.mem_cons_of_mem _ h1, h2⟩
  · have : (σ.set i s os).held = fun j => if j = i then some s.fd else σ.held j := by
      funext j
      by_cases hj : j = i
      · simp only [State.held, State.set, hj, if_true]
        rw [if_neg (by omega)]
      · simp [State.held, State.set, hj]
    rw [this]
    refine .opened (by simp [State.held, hi]) ?_
    intro j
    simp only [State.held]
    split
    · simp
    · simp only [ne_eq, Option.some.injEq]; exact hne j

/-- A step that changes no descriptor. -/
theorem Inv.same {base : List Fd} {σ : State} (h : Inv base σ) {i : Nat} {os : Os} {s : Sock}
    (hl : s.err.length = 128) (hf : os.fds = σ.os.fds) (hs : s.fd = (σ.socks i).fd) :
    Inv base (σ.set i s os) ∧ Spec.Step σ.held .other (σ.set i s os).held := by
  have hfd : ∀ j, ((σ.set i s os).socks j).fd = (σ.socks j).fd := by
    intro j
    by_cases hj : j = i
    · simp [State.set, hj, hs]
    · simp [State.set, hj]
  have hnums : (σ.set i s os).os.nums = σ.os.nums := by simp [Os.nums, State.set, hf]
  refine ⟨⟨?_, ?_, ?_, ?_, ?_, ?_, ?_⟩, ?_⟩
  · intro j; by_cases hj : j = i <;> simp [State.set, hj, hl, h.len]
  · intro j; rw [hfd]; exact h.fd j
  · intro j k; rw [hfd, hfd]; exact h.inj j k
  · rw [hnums]; exact h.nodup
  · intro f hf'; show f ∈ os.fds; rw [hf]; exact h.old f hf'
  · intro f hf'
    have hf' : f ∈ os.fds := hf'
    rw [hf] at hf'
    rcases h.own f hf' with hb | ⟨j, h1, h2⟩
    · exact .inl hb
    · exact .inr ⟨j, by rw [hfd]; exact h1, h2⟩
  · intro j; rw [hfd, hnums]; exact h.opened j
  · have : (σ.set i s os).held = σ.held := by funext j; simp [State.held, hfd]
    rw [this]
    exact .other

theorem Inv.close {base : List Fd} {σ : State} (h : Inv base σ) {i : Nat} {os : Os} {s : Sock}
    (hl : s.err.length = 128) (hf : os.fds = σ.os.fds.filter (fun f => f.num ≠ (σ.socks i).fd)) (hs : s.fd = -1)
    (hi : (σ.socks i).fd ≠ -1) :
    Inv base (σ.set i s os) ∧ Spec.Step σ.held (.closed i) (σ.set i s os).held := by
  refine ⟨⟨?_, ?_, ?_, ?_, ?_, ?_, ?_⟩, ?_⟩
  · intro j; by_cases hj : j = i <;> simp [State.set, hj, hl, h.len]
  · intro j; by_cases hj : j = i
    · simp [State.set, hj, hs]
    · simp only [State.set, hj, if_false]; exact h.fd j
  · intro j k
    simp only [State.set]
    by_cases hj : j = i <;> by_cases hk : k = i
    · intro _; right; rw [hj, hk]
    · simp [hj, hs]
    · simp only [hj, hk, if_true, if_false, hs]; intro he; exact .inl he
    · simp only [hj, hk, if_false]; exact h.inj j k
  · have : os.nums.Sublist σ.os.nums := by
      simp only [Os.nums, hf]
      exact List.filter_sublist.map _
    exact this.nodup h.nodup
  · intro f hf'
    show f ∈ os.fds
    rw [hf, List.mem_filter]
    refine ⟨h.old f hf', ?_⟩
    simp only [decide_eq_true_eq]
    intro he
    exact (h.opened i hi).2 (List.mem_map.2 ⟨f, hf', he⟩)
  · intro f hf'
    have hf' : f ∈ os.fds := hf'
    rw [hf, List.mem_filter] at hf'
    simp only [decide_eq_true_eq] at hf'
    rcases h.own f hf'.1 with hb | ⟨j, h1, h2⟩
    · exact .inl hb
    · refine .inr ⟨j, ?_, h2⟩
      have : j ≠ i := by rintro rfl; exact hf'.2 h1.symm
      simp [State.set, this, h1]
  · intro j
    by_cases hj : j = i
    · simp [State.set, hj, hs]
    · simp only [State.set, hj, if_false]
      intro hx
      obtain ⟨h1, h2⟩ := h.opened j hx
      refine ⟨?_, h2⟩
      obtain ⟨f, hf1, hf2⟩ := List.mem_map.1 h1
      refine List.mem_map.2 ⟨f, ?_, hf2⟩
      show f ∈ os.fds
      rw [hf, List.mem_filter]
      refine ⟨hf1, ?_⟩
      simp only [decide_eq_true_eq]
      intro he
      rcases h.inj j i (by rw [← hf2, he]) with hc | hc
      · exact hx hc
      · exact hj hc
  · have : (σ.set i s os).held = fun j => if j = i then none else σ.held j := by
      funext j
      by_cases hj : j = i <;> simp [State.held, State.set, hj, hs]
    rw [this]
    exact .closed

/-- Destroying a socket whose descriptor is open closes it, whatever `close` says. -/
theorem term_ok {e : Env} (he : Laws e) {os : Os} {s : Sock} (hl : s.err.length = 128) (hs : s.fd = -1 ∨ s.fd ∈ os.nums) :
    ∃ rc os' s', term e os s = .ok (rc, os', s') ∧ s'.err.length = 128 ∧ s'.fd = -1 ∧
      (s.fd = -1 → os' = os ∧ rc = 0 ∧ s' = s) ∧
      (s.fd ≠ -1 → os'.fds = os.fds.filter (fun f => f.num ≠ s.fd) ∧
        (rc = 0 ∨ rc = -1 ∧ ∃ m, Recent os os' m ∧ Shows s'.err m)) := by
  unfold term sockClose
  by_cases h : s.fd = -1
  · rw [if_neg (by simpa using h)]
    simp only [Res.ok_bind, ne_eq, not_true_eq_false, if_false]
    exact ⟨_, _, _, rfl, hl, h, fun _ => ⟨rfl, rfl, rfl⟩, fun hn => absurd h hn⟩
  · rw [if_pos h]
    have hm := hs.resolve_left h
    unfold kclose
    rw [if_pos hm]
    simp only [Res.ok_bind]
    obtain ⟨⟨k1, k2, k3⟩, -⟩ := attempt_ok e { os with fds := os.fds.filter (fun f => f.num ≠ s.fd) }
    generalize attempt e { os with fds := os.fds.filter (fun f => f.num ≠ s.fd) } = r at k1 k2 k3 ⊢
    obtain ⟨b, os'⟩ := r
    simp only at k1 k2 k3
    cases b with
    | true =>
      simp only [if_true, ne_eq, not_true_eq_false, if_false]
      exact ⟨_, _, _, rfl, hl, rfl, fun hn => absurd hn h, fun _ => ⟨k1, .inl rfl⟩⟩
    | false =>
      obtain ⟨err, m1, m2, m3⟩ := errstr_ok he (g := 0) (os := os') (s := { s with fd := -1 }) hl
      have : ((if false = true then 0 else -1) : Int) ≠ 0 := by simp
      rw [if_pos this, m1]
      refine ⟨_, _, _, rfl, m2, rfl, fun hn => absurd hn h, fun _ => ⟨k1, .inr ⟨rfl, _, k3 rfl, ?_⟩⟩⟩
      simpa using m3

/-- **C94** for connections that were under way: 0 if there is no pending error, else -1 with its
text. -/
theorem finishConnect_ok {e : Env} (he : Laws e) {os : Os} {s : Sock} (hl : s.err.length = 128) :
    ∃ rc os' s', finishConnect e os s = .ok (rc, os', s') ∧ os'.fds = os.fds ∧ s'.fd = s.fd ∧ s'.err.length = 128 ∧
      (rc = 0 ∧ e.call os.n = none ∧ e.pending (os.n + 1) = 0 ∧ s' = s ∨
       rc = -1 ∧ ((∃ er, e.call os.n = some er ∧ Shows s'.err (e.strerror er)) ∨
        e.call os.n = none ∧ e.pending (os.n + 1) ≠ 0 ∧ Shows s'.err (e.strerror (e.pending (os.n + 1))))) := by
  unfold finishConnect attempt
  cases h : e.call os.n with
  | some er =>
    simp only
    obtain ⟨err, m1, m2, m3⟩ := errstr_ok he (g := 0) (os := ({ os with n := os.n + 1 } : Os).failed e er) hl
    rw [m1]
    exact ⟨_, _, _, rfl, rfl, rfl, m2, .inr ⟨rfl, .inl ⟨er, rfl, by simpa [Os.failed] using m3⟩⟩⟩
  | none =>
    simp only
    by_cases hp : e.pending (os.n + 1) = 0
    · rw [if_neg (by simpa using hp)]
      exact ⟨_, _, _, rfl, rfl, rfl, hl, .inl ⟨rfl, trivial, hp, rfl⟩⟩
    · rw [if_pos hp]
      obtain ⟨err, m1, m2, m3⟩ := errstr_ok he (g := 0)
        (os := ({ os with n := os.n + 1 } : Os).failed e (e.pending (os.n + 1))) hl
      rw [m1]
      exact ⟨_, _, _, rfl, rfl, rfl, m2, .inr ⟨rfl, .inr ⟨trivial, hp, by simpa [Os.failed] using m3⟩⟩⟩

theorem error_ok {s : Sock} (hl : s.err.length = 128) :
    ∃ s', error s = .ok s' ∧ s'.fd = s.fd ∧ s'.err.length = 128 := by
  unfold error
  rw [wr_lt (by omega)]
  exact ⟨_, rfl, rfl, by simpa using hl⟩

/-- What connecting does to descriptors, for all kinds of sockets. -/
theorem connect_fds {e : Env} (he : Laws e) {dst dstPort src srcPort : Option (List UInt8)} {os : Os} {s : Sock}
    (hs : s.fd = -1) (hl : s.err.length = 128) (hh : GoodHost dst s.family) :
    ∃ rc os' s', connect e dst dstPort src srcPort os s = .ok (rc, os', s') ∧
      ((rc = 0 ∨ rc = -1 ∧ s.blocking = false ∧ os'.errno = EAGAIN) ∧ Got os s os' s' ∨ rc = -1 ∧ Failed os s os' s') := by
  by_cases hu : s.family = AF_UNIX
  · obtain ⟨h, str, rfl, hc⟩ := hh hu
    obtain ⟨rc, os', s', h1, -, h2⟩ := connect_unix he (dstPort := dstPort) (src := src) (srcPort := srcPort) (os := os) hs hl hu hc
    rcases h2 with ⟨h3, -, h4, -⟩ | ⟨h3, h4⟩
    · exact ⟨_, _, _, h1, .inl ⟨.inl h3, h4⟩⟩
    · exact ⟨_, _, _, h1, .inr ⟨h3, h4⟩⟩
  · obtain ⟨rc, os', s', h1, h2⟩ := connect_inet he (dst := dst) (dstPort := dstPort) (src := src) (srcPort := srcPort) (os := os) hs hl hu
    rcases h2 with ⟨g, -, h3, h4, -⟩ | ⟨as, tried, -, -, -, h2⟩
    · exact ⟨_, _, _, h1, .inr ⟨h3, h4⟩⟩
    · rcases h2 with ⟨h3, h4, -⟩ | ⟨h3, h4, -⟩
      · exact ⟨_, _, _, h1, .inl ⟨h3, h4⟩⟩
      · exact ⟨_, _, _, h1, .inr ⟨h3, h4⟩⟩

theorem step_ok {e : Env} (he : Laws e) {base : List Fd} {σ σ' : State} {ev : Event} (h : Inv base σ) (hs : Step e σ ev σ') :
    Inv base σ' ∧ Spec.Step σ.held ev σ'.held := by
  cases hs with
  | @init i b f hi => exact h.same (by simp [init]) rfl (by rw [hi]; rfl)
  | @listen i host port rc os s hi hh hr =>
    obtain ⟨rc', os', s', h1, -, h2⟩ := listen_spec he (port := port) (os := σ.os) hi (h.len i) hh
    rw [h1] at hr
    cases hr
    rcases h2 with ⟨h3, h4, -⟩ | ⟨h3, h4⟩
    · rw [if_pos h3]
      obtain ⟨nb, hf⟩ := h4.fds
      exact h.open hi h4.len hf h4.new h4.pos
    · rw [if_neg (by omega)]
      exact h.same h4.len h4.fds (by rw [hi]; exact h4.fd)
  | @connect i dst dstPort src srcPort rc os s hi hh hr =>
    obtain ⟨rc', os', s', h1, h2⟩ := connect_fds he (dstPort := dstPort) (src := src) (srcPort := srcPort) (os := σ.os) hi (h.len i) hh
    rw [h1] at hr
    cases hr
    rcases h2 with ⟨h3, h4⟩ | ⟨h3, h4⟩
    · have := h4.pos
      rw [if_neg (by omega)]
      obtain ⟨nb, hf⟩ := h4.fds
      exact h.open hi h4.len hf h4.new h4.pos
    · rw [if_pos h4.fd]
      exact h.same h4.len h4.fds (by rw [hi]; exact h4.fd)
  | @accept i j rc os s inn hij hj hr =>
    obtain ⟨rc', os', s', inn', h1, h2, -, -, -, h3, h4, -, h5⟩ := accept_spec he (os := σ.os) hj (h.len i)
    rw [h1] at hr
    cases hr
    have h0 := (h.same (i := i) (os := σ.os) (s := s) h3 rfl h2).1
    have hheld : (σ.set i s σ.os).held = σ.held := by
      funext k
      by_cases hk : k = i <;> simp [State.held, State.set, hk, h2]
    have hset : ((σ.set i s os).set j inn os) = ((σ.set i s σ.os).set j inn os) := rfl
    have hj' : ((σ.set i s σ.os).socks j).fd = -1 := by simp [State.set, Ne.symm hij, hj]
    have hlen : inn.err.length = 128 := by rw [h4]; exact h.len j
    rw [hset, ← hheld]
    rcases h5 with ⟨h6, -, h7, h8, h9, -⟩ | ⟨h6, h7, h8, -⟩
    · rw [if_pos h6]
      exact h0.open hj' hlen h7 h8 h9
    · rw [if_neg (by omega)]
      exact h0.same hlen h7 (by rw [hj']; exact h8)
  | @term i rc os s hr =>
    have hm : (σ.socks i).fd = -1 ∨ (σ.socks i).fd ∈ σ.os.nums := by
      by_cases hx : (σ.socks i).fd = -1
      · exact .inl hx
      · exact .inr (h.opened i hx).1
    obtain ⟨rc', os', s', h1, h2, h3, h4, h5⟩ := term_ok he (h.len i) hm
    rw [h1] at hr
    cases hr
    by_cases hx : (σ.socks i).fd = -1
    · obtain ⟨h6, -, h7⟩ := h4 hx
      obtain ⟨h8, -⟩ := h.same (i := i) (os := os) (s := s) h2 (by rw [h6]) (by rw [h7])
      refine ⟨h8, ?_⟩
      have : (σ.set i s os).held = fun j => if j = i then none else σ.held j := by
        funext j
        by_cases hj : j = i <;> simp [State.held, State.set, hj, h3]
      rw [this]
      exact .closed
    · exact h.close h2 (h5 hx).1 h3 hx
  | @finish i rc os s hr =>
    obtain ⟨rc', os', s', h1, h2, h3, h4, -⟩ := finishConnect_ok he (os := σ.os) (h.len i)
    rw [h1] at hr
    cases hr
    exact h.same h4 h2 h3
  | @error i s hr =>
    obtain ⟨s', h1, h2, h3⟩ := error_ok (h.len i)
    rw [h1] at hr
    cases hr
    exact h.same h3 rfl h2

theorem run_ok {e : Env} (he : Laws e) {σ₀ σ : State} {es : List Event} (h : Start σ₀) (r : Runs e σ₀ es σ) :
    Inv σ₀.os.fds σ ∧ Spec.Run (fun _ => none) es σ.held := by
  have h0 : ∀ i, (σ₀.socks i).fd = -1 := by
    intro i
    obtain ⟨b, f, hi⟩ := h.fresh i
    rw [hi]; rfl
  induction r with
  | refl =>
    refine ⟨⟨?_, fun i => .inl (h0 i), fun i _ _ => .inl (h0 i), h.nodup, fun _ hf => hf, fun _ hf => .inl hf,
      fun i hi => absurd (h0 i) hi⟩, ?_⟩
    · intro i
      obtain ⟨b, f, hi⟩ := h.fresh i
      rw [hi]; simp [init]
    · have : σ₀.held = fun _ => none := by funext i; simp [State.held, h0]
      rw [this]; exact .refl
  | step r hs ih =>
    obtain ⟨h1, h2⟩ := step_ok he ih.1 hs
    exact ⟨h1, .step ih.2 h2⟩

/-- **C75.** For every history of any number of sockets and every outcome of every system call: what
is held follows the specification, each open descriptor is open once, and it is one that was open
before, in its old mode, or that of exactly one object. -/
theorem resources {e : Env} (he : Laws e) {σ₀ σ : State} {es : List Event} (h : Start σ₀) (r : Runs e σ₀ es σ) :
    Spec.Run (fun _ => none) es σ.held ∧ σ.os.nums.Nodup ∧ (∀ f ∈ σ₀.os.fds, f ∈ σ.os.fds) ∧
    (∀ f ∈ σ.os.fds, f ∈ σ₀.os.fds ∨ ∃ i, σ.held i = some f.num) ∧
    (∀ i n, σ.held i = some n → n ∈ σ.os.nums ∧ n ∉ σ₀.os.nums ∧ ∀ j, σ.held j = some n → j = i) := by
  obtain ⟨h1, h2⟩ := run_ok he h r
  refine ⟨h2, h1.nodup, h1.old, ?_, ?_⟩
  · intro f hf
    rcases h1.own f hf with hb | ⟨i, h3, h4⟩
    · exact .inl hb
    · exact .inr ⟨i, by simp only [State.held]; rw [if_neg (by omega), h3]⟩
  · intro i n hn
    simp only [State.held] at hn
    split at hn
    · cases hn
    · next hi =>
      cases hn
      obtain ⟨h3, h4⟩ := h1.opened i hi
      refine ⟨h3, h4, ?_⟩
      intro j hj
      simp only [State.held] at hj
      split at hj
      · cases hj
      · next hj' =>
        simp only [Option.some.injEq] at hj
        rcases h1.inj j i hj with hc | hc
        · exact absurd hc hj'
        · exact hc

/-- When all are destroyed, what is open is what was open at first. -/
theorem no_leak {e : Env} (he : Laws e) {σ₀ σ : State} {es : List Event} (h : Start σ₀) (r : Runs e σ₀ es σ)
    (hn : ∀ i, σ.held i = none) : ∀ f, f ∈ σ.os.fds ↔ f ∈ σ₀.os.fds := by
  obtain ⟨-, -, h1, h2, -⟩ := resources he h r
  intro f
  refine ⟨fun hf => ?_, h1 f⟩
  rcases h2 f hf with hb | ⟨i, hi⟩
  · exact hb
  · rw [hn i] at hi; cases hi

/-- No call is undefined, and none closes a descriptor that is not its own. -/
theorem no_ub {e : Env} (he : Laws e) {σ₀ σ : State} {es : List Event} (h : Start σ₀) (r : Runs e σ₀ es σ) (i : Nat) :
    (term e σ.os (σ.socks i)).Defined ∧ (finishConnect e σ.os (σ.socks i)).Defined ∧ (error (σ.socks i)).Defined ∧
    ((σ.socks i).fd = -1 → ∀ host port, GoodHost host (σ.socks i).family → (listen e host port σ.os (σ.socks i)).Defined) ∧
    ((σ.socks i).fd = -1 → ∀ dst dp src sp, GoodHost dst (σ.socks i).family → (connect e dst dp src sp σ.os (σ.socks i)).Defined) ∧
    (∀ j, (σ.socks j).fd = -1 → (accept e σ.os (σ.socks i) (σ.socks j)).Defined) := by
  obtain ⟨h1, -⟩ := run_ok he h r
  refine ⟨?_, ?_, ?_, ?_, ?_, ?_⟩
  · have hm : (σ.socks i).fd = -1 ∨ (σ.socks i).fd ∈ σ.os.nums := by
      by_cases hx : (σ.socks i).fd = -1
      · exact .inl hx
      · exact .inr (h1.opened i hx).1
    obtain ⟨_, _, _, h2, -⟩ := term_ok he (h1.len i) hm
    exact ⟨_, h2⟩
  · obtain ⟨_, _, _, h2, -⟩ := finishConnect_ok he (os := σ.os) (h1.len i)
    exact ⟨_, h2⟩
  · obtain ⟨_, h2, -⟩ := error_ok (h1.len i)
    exact ⟨_, h2⟩
  · intro hi host port hh
    obtain ⟨_, _, _, h2, -⟩ := listen_spec he (port := port) (os := σ.os) hi (h1.len i) hh
    exact ⟨_, h2⟩
  · intro hi dst dp src sp hh
    obtain ⟨_, _, _, h2, -⟩ := connect_fds he (dstPort := dp) (src := src) (srcPort := sp) (os := σ.os) hi (h1.len i) hh
    exact ⟨_, h2⟩
  · intro j hj
    obtain ⟨_, _, _, _, h2, -⟩ := accept_spec he (os := σ.os) hj (h1.len i)
    exact ⟨_, h2⟩

/-! ## Modes -/

/-- **C95**, where it holds: an internet socket that listens, connects or is connecting has the mode
asked for, and so has every accepted one. -/
theorem mode_partial {e : Env} (he : Laws e) {os : Os} {s : Sock} (hs : s.fd = -1) (hl : s.err.length = 128)
    (hu : s.family ≠ AF_UNIX) :
    (∀ host port os' s', listen e host port os s = .ok (0, os', s') → ⟨s'.fd, !s.blocking⟩ ∈ os'.fds) ∧
    (∀ dst dp src sp rc os' s', connect e dst dp src sp os s = .ok (rc, os', s') → s'.fd ≠ -1 →
      ⟨s'.fd, !s.blocking⟩ ∈ os'.fds) := by
  constructor
  · intro host port os' s' hr
    obtain ⟨rc₁, os₁, s₁, h1, -, h2⟩ := listen_spec he (host := host) (port := port) (os := os) hs hl (fun h => absurd h hu)
    rw [h1] at hr
    cases hr
    rcases h2 with ⟨-, -, os₂, h3, h4, -⟩ | ⟨h3, -⟩
    · cases h3 with
      | inet skipped rest p h5 h6 h7 h8 => rw [h4, h7]; simp
      | unix h str path h5 => exact absurd h5 hu
    · cases h3
  · intro dst dp src sp rc os' s' hr hn
    obtain ⟨rc₁, os₁, s₁, h1, h2⟩ := connect_inet he (dst := dst) (dstPort := dp) (src := src) (srcPort := sp) (os := os) hs hl hu
    rw [h1] at hr
    cases hr
    rcases h2 with ⟨g, -, -, h4, -⟩ | ⟨as, tried, -, -, -, h2⟩
    · exact absurd h4.fd hn
    · rcases h2 with ⟨-, h4, failed, p, -, h5⟩ | ⟨-, h4, -⟩
      · rw [h5.fds, ← h4.blocking]; simp
      · exact absurd h4.fd hn

/-- Accepted sockets have the mode of the one that listens. -/
theorem accept_mode {e : Env} (he : Laws e) {os os' : Os} {s s' inn inn' : Sock} (hi : inn.fd = -1) (hl : s.err.length = 128)
    (hr : accept e os s inn = .ok (0, os', s', inn')) : ⟨inn'.fd, !s.blocking⟩ ∈ os'.fds := by
  obtain ⟨_, _, _, _, h1, -, -, -, -, -, -, -, h5⟩ := accept_spec he (os := os) hi hl
  rw [h1] at hr
  cases hr
  rcases h5 with ⟨-, -, h7, -⟩ | ⟨h6, -⟩
  · rw [h7]; simp
  · cases h6

/-- An environment in which everything succeeds -/
def calm : Env where
  strerror _ := [0]
  gaiStr _ := [0]
  call _ := none
  gai _ _ _ _ := .ok [⟨10, 1, 6, [1]⟩, ⟨2, 1, 6, [2]⟩]
  newfd l := l.foldl (fun a b => max a (b + 1)) 0
  inherits _ := false
  pending _ := 0

theorem foldl_max_ge (l : List Int) : ∀ a : Int, a ≤ l.foldl (fun a b => max a (b + 1)) a ∧
    ∀ b ∈ l, b < l.foldl (fun a b => max a (b + 1)) a := by
  induction l with
  | nil => intro a; simp
  | cons x xs ih =>
    intro a
    simp only [List.foldl_cons]
    obtain ⟨h1, h2⟩ := ih (max a (x + 1))
    refine ⟨by omega, ?_⟩
    intro b hb
    rcases List.mem_cons.1 hb with rfl | hb
    · omega
    · exact h2 b hb

theorem calm_laws : Laws calm where
  texts _ := ⟨[], by constructor <;> simp [calm]⟩
  gtexts _ := ⟨[], by constructor <;> simp [calm]⟩
  unused l h := by have := (foldl_max_ge l 0).2 _ h; simp only [calm] at this; omega
  nonneg l := (foldl_max_ge l 0).1
  gaiErr h p f n rc hh := by simp [calm] at hh
  gaiOk h p f n hh := by simp [calm] at hh

def empty : Os := ⟨[], 0, 0, [], []⟩

/-- Mode of a descriptor -/
def modeOf (r : Res (Int × Os × Sock)) : Option (Int × Bool) :=
  match r with
  | .ok (rc, os, s) => (os.fds.find? (fun f => f.num = s.fd)).map fun f => (rc, f.nonblock)
  | .ub => none

/-- **C95** fails for unix sockets: one that was initialised to be non-blocking listens and connects
in blocking mode. -/
theorem mode_violated :
    modeOf (listen calm (some [97, 0]) none empty (init false AF_UNIX)) = some (0, false) ∧
    modeOf (connect calm (some [97, 0]) none none none empty (init false AF_UNIX)) = some (0, false) := by
  constructor <;> decide +kernel

/-! ## Paths -/

/-- The path a call of `bind` or `connect` in the list names -/
def paths (l : List Call) : List (List UInt8) :=
  l.filterMap fun c => match c with
    | .bind _ _ a => some (pathName a)
    | .connect _ _ a => some (pathName a)
    | _ => none

/-- **C96**, where it holds: listening at a path of less than 108 bytes and connecting to it name the
same place, the path, and nothing else is removed. -/
theorem path_partial {e : Env} (he : Laws e) {os : Os} {s : Sock} (hs : s.fd = -1) (hl : s.err.length = 128)
    (hu : s.family = AF_UNIX) {host str : List UInt8} (hc : CStr host 0 str) (hlen : str.length < 108) :
    (∀ port os' s', listen e (some host) port os s = .ok (0, os', s') →
      ∃ path, pathName path = str ∧
      os'.log = os.log ++ [.socket AF_UNIX SOCK_STREAM 0, .unlink str, .bind s'.fd AF_UNIX path, .listen s'.fd 4096]) ∧
    (∀ dp src sp os' s', connect e (some host) dp src sp os s = .ok (0, os', s') →
      ∃ path, pathName path = str ∧
      os'.log = os.log ++ [.socket AF_UNIX SOCK_STREAM 0, .connect s'.fd AF_UNIX path]) := by
  constructor
  · intro port os' s' hr
    obtain ⟨rc₁, os₁, s₁, h1, -, h2⟩ := listen_spec he (host := some host) (port := port) (os := os) hs hl
      (fun _ => ⟨host, str, rfl, hc⟩)
    rw [h1] at hr
    cases hr
    rcases h2 with ⟨-, -, os₂, h3, h4, h5⟩ | ⟨h3, -⟩
    · cases h3 with
      | inet skipped rest p h5 => exact absurd hu h5
      | unix h str' path h6 h7 h8 h9 h10 h11 =>
        cases h7
        have : str' = str := h8.unique hc
        subst this
        refine ⟨path, ?_, ?_⟩
        · rw [h9, List.take_of_length_le (by omega)]
        · rw [h5, h11]; simp
    · cases h3
  · intro dp src sp os' s' hr
    obtain ⟨rc₁, os₁, s₁, h1, -, h2⟩ := connect_unix he (dstPort := dp) (src := src) (srcPort := sp) (os := os) hs hl hu hc
    rw [h1] at hr
    cases hr
    rcases h2 with ⟨-, -, -, -, path, -, h5, h6⟩ | ⟨h3, -⟩
    · exact ⟨path, h5, h6⟩
    · cases h3

/-- A path of 108 bytes -/
def longPath : List UInt8 := List.replicate 108 97

/-- What a call returns and the paths it names -/
def named (r : Res (Int × Os × Sock)) : Option (Int × List (List UInt8)) :=
  match r with
  | .ok (rc, os, _) => some (rc, paths os.log)
  | .ub => none

/-- **C96** fails for longer ones: listening succeeds at another path, which lacks the last byte, and
connecting is refused. -/
theorem path_violated :
    named (listen calm (some (longPath ++ [0])) none empty (init true AF_UNIX)) = some (0, [longPath.take 107]) ∧
    named (connect calm (some (longPath ++ [0])) none none none empty (init true AF_UNIX)) = some (-1, []) := by
  constructor <;> decide +kernel

/-! ## Texts -/

/-- **C94.** After a failed call `sc_sock_error` returns the text of an error that occurred in it, as
a string, cut to 127 bytes. -/
theorem failed_text {os os' : Os} {s s' : Sock} (h : Failed os s os' s') :
    ∃ m t s'', Recent os os' m ∧ CStr m 0 t ∧ error s' = .ok s'' ∧ CStr s''.err 0 (t.take 127) := by
  obtain ⟨m, h1, t, ht, err', h3, h4⟩ := h.text
  refine ⟨m, t, { s' with err := err' }, h1, ht, ?_, h4⟩
  show (do let err ← wr s'.err 127 0; Res.ok { s' with err := err }) = _
  rw [h3]
  rfl

/-! ## Cases -/

/-- The environment in which the calls with the given numbers fail -/
def bad (l : List (Nat × Int)) : Env := { calm with call := fun n => (l.find? (fun p => p.1 = n)).map Prod.snd }

theorem bad_laws (l : List (Nat × Int)) : Laws (bad l) := { calm_laws with }

/-- A result without what is long -/
def brief (r : Res (Int × Os × Sock)) : Option (Int × Int × List Fd × Int × List Call) :=
  match r with
  | .ok (rc, os, s) => some (rc, s.fd, os.fds, os.errno, os.log)
  | .ub => none

/-- The first address, of the preferred family, refuses the connection: the second is tried. -/
example : brief (connect (bad [(6, 111)]) (some [97, 0]) none none none ⟨[⟨0, false⟩], 0, 0, [], []⟩ (init true 10)) =
    some (0, 1, [⟨1, false⟩, ⟨0, false⟩], 111,
      [.socket 10 1 6, .getfl 1, .setfl 1 false, .opt 1 .reuseaddr, .opt 1 .nodelay, .connect 1 10 [1],
       .socket 2 1 6, .getfl 1, .setfl 1 false, .opt 1 .reuseaddr, .opt 1 .nodelay, .connect 1 2 [2]]) := by
  decide +kernel

/-- A connection that is under way -/
example : brief (connect (bad [(6, EINPROGRESS)]) (some [97, 0]) none none none empty (init false 2)) =
    some (-1, 0, [⟨0, true⟩], EAGAIN,
      [.socket 2 1 6, .getfl 0, .setfl 0 true, .opt 0 .reuseaddr, .opt 0 .nodelay, .connect 0 2 [2]]) := by decide +kernel

/-- A bound socket that cannot listen is closed. -/
example : brief (listen (bad [(8, 98)]) none (some [56, 48, 0]) ⟨[⟨0, false⟩], 0, 0, [], []⟩ (init false 10)) =
    some (-1, -1, [⟨0, false⟩], 98,
      [.socket 10 1 6, .opt 1 .v6only, .getfl 1, .setfl 1 true, .opt 1 .reuseaddr, .opt 1 .nodelay, .bind 1 10 [1],
       .listen 1 4096]) := by decide +kernel

/-- All objects new -/
def start : State := ⟨fun _ => init false 10, ⟨[⟨0, false⟩], 0, 0, [], []⟩⟩

theorem start_ok : Start start where
  fresh _ := ⟨_, _, rfl⟩
  nodup := by decide

/-- What a call that is defined yields -/
def out {α : Type} (d : α) : Res α → α
  | .ok x => x
  | .ub => d

def r₁ : Int × Os × Sock := out (0, empty, init true 0) (listen calm none (some [0]) start.os (start.socks 0))
def σ₁ : State := start.set 0 r₁.2.2 r₁.2.1
def r₂ : Int × Os × Sock × Sock := out (0, empty, init true 0, init true 0) (accept calm σ₁.os (σ₁.socks 0) (σ₁.socks 1))
def σ₂ : State := (σ₁.set 0 r₂.2.2.1 r₂.2.1).set 1 r₂.2.2.2 r₂.2.1
def r₃ : Int × Os × Sock := out (0, empty, init true 0) (term calm σ₂.os (σ₂.socks 0))
def σ₃ : State := σ₂.set 0 r₃.2.2 r₃.2.1

/-- A history: one object listens, another accepts, the first is destroyed. -/
example : Runs calm start [.opened 0 1, .opened 1 2, .closed 0] σ₃ ∧ σ₃.held 0 = none ∧ σ₃.held 1 = some 2 ∧
    σ₃.os.fds = [⟨2, true⟩, ⟨0, false⟩] := by
  have e1 : (if r₁.1 = 0 then Event.opened 0 r₁.2.2.fd else .other) = .opened 0 1 := by decide +kernel
  have e2 : (if r₂.1 = 0 then Event.opened 1 r₂.2.2.2.fd else .other) = .opened 1 2 := by decide +kernel
  have h1 : listen calm none (some [0]) start.os (start.socks 0) = .ok (r₁.1, r₁.2.1, r₁.2.2) := by decide +kernel
  have h2 : accept calm σ₁.os (σ₁.socks 0) (σ₁.socks 1) = .ok (r₂.1, r₂.2.1, r₂.2.2.1, r₂.2.2.2) := by decide +kernel
  have h3 : term calm σ₂.os (σ₂.socks 0) = .ok (r₃.1, r₃.2.1, r₃.2.2) := by decide +kernel
  have s1 := Step.listen (σ := start) (i := 0) rfl (fun h => absurd h (by decide)) h1
  have s2 := Step.accept (σ := σ₁) (i := 0) (j := 1) (by decide) rfl h2
  rw [e1] at s1
  rw [e2] at s2
  refine ⟨.step (.step (.step .refl s1) s2) (.term h3), ?_, ?_, ?_⟩ <;> decide +kernel

end Verif.Sock
