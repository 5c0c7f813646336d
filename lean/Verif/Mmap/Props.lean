import Verif.Thread.Props
import Verif.Mmap.Model

/-! # Properties of memory maps -/

namespace Verif.Mmap

open Ini (strncpy)
open Thread (Texts strncpy_short strncpy_long)
open Spec (Mapping Event Reaches)

/-! ## Texts of errors -/

/-- The text is a string that fits. -/
def ErrOk (m : Obj) : Prop := m.err.length = 128 ∧ m.err[127]? = some 0

/-- Storing a text: it is there, cut to 127 bytes. -/
theorem store {err mem s : List UInt8} (h : CStr mem 0 s) (hl : err.length = 128) (h0 : err[127]? = some 0) :
    ∃ err', strncpy err mem 0 (128 - 1) = .ok err' ∧ err'.length = 128 ∧ err'[127]? = some 0 ∧
      CStr err' 0 (s.take 127) := by
  by_cases hs : s.length < 127
  · have hf : 0 + (s.take 127 ++ List.replicate (127 - s.length) (0 : UInt8)).length ≤ err.length := by simp; omega
    obtain ⟨d, h1, h2, h3⟩ := strncpy_short h (n := 127) (dst := err) (by omega) hs
    refine ⟨d, h1, by omega, ?_, by rw [List.take_of_length_le (by omega)]; exact h2⟩
    have e : strncpy err mem 0 127 = .ok (splice err 0 (s.take 127 ++ List.replicate (127 - s.length) 0)) := by
      unfold strncpy
      rw [cstr_eq h]
      simp only [Res.ok_bind]
      rw [if_pos (by omega)]
    rw [e] at h1
    injection h1 with h1
    rw [← h1, splice_getElem? hf, if_neg (by omega), if_neg (by simp; omega)]
    exact h0
  · obtain ⟨d, h1, h2, h3, h4⟩ := strncpy_long h (n := 127) (dst := err) (by omega) (by omega)
    refine ⟨d, h1, by omega, by rw [h4 127 (by omega)]; exact h0, ?_, ?_, ?_⟩
    · intro i hi
      have hi' : i < 127 := by simp at hi; omega
      have e : (d.take 127)[i]? = (s.take 127)[i]? := by rw [h3]
      rw [List.getElem?_take, if_pos hi'] at e
      rw [Nat.zero_add, e, List.getElem?_eq_getElem hi]
    · intro b hm
      exact h.nonzero b (List.mem_of_mem_take hm)
    · rw [h4 _ (by simp; omega)]
      have : (s.take 127).length = 127 := by simp; omega
      rw [this]
      exact h0

theorem _root_.Verif.CStr.unique {mem s t : List UInt8} {p : Nat} (h : CStr mem p s) (h' : CStr mem p t) : s = t := by
  have e := cstr_eq h
  rw [cstr_eq h'] at e
  injection e with e
  exact e.symm

/-- The text of the object is that of the error, as far as it fits. -/
def TextOf (strerror : Int → List UInt8) (e : Int) (m : Obj) : Prop :=
  ∀ s, CStr (strerror e) 0 s → CStr m.err 0 (s.take 127)

theorem fail_ok {strerror : Int → List UInt8} (hs : Texts strerror) {os : Os} {m : Obj} (h : ErrOk m) :
    ∃ err, fail strerror os m = .ok (-1, os, { m with err := err }) ∧ ErrOk { m with err := err } ∧
      TextOf strerror os.errno { m with err := err } := by
  obtain ⟨s, hc⟩ := hs os.errno
  obtain ⟨d, h1, h2, h3, h4⟩ := store hc h.1 h.2
  refine ⟨d, by unfold fail; rw [h1]; rfl, ⟨h2, h3⟩, ?_⟩
  intro s' hc'
  rw [CStr.unique hc' hc]
  exact h4

theorem note_ok {strerror : Int → List UInt8} (hs : Texts strerror) {rc : Int} {os : Os} {m : Obj} (h : ErrOk m) :
    ∃ err, note strerror rc os m = .ok { m with err := err } ∧ ErrOk { m with err := err } ∧
      (rc ≠ 0 → TextOf strerror os.errno { m with err := err }) ∧ (rc = 0 → err = m.err) := by
  unfold note
  by_cases hr : rc = 0
  · rw [if_neg (by simpa using hr)]
    exact ⟨m.err, rfl, h, fun h => absurd hr h, fun _ => rfl⟩
  · rw [if_pos hr]
    obtain ⟨s, hc⟩ := hs os.errno
    obtain ⟨d, h1, h2, h3, h4⟩ := store hc h.1 h.2
    refine ⟨d, by rw [h1]; rfl, ⟨h2, h3⟩, ?_, fun e => absurd e hr⟩
    intro _ s' hc'
    rw [CStr.unique hc' hc]
    exact h4

theorem cleanup_ok {strerror : Int → List UInt8} (hs : Texts strerror) {os : Os} {m : Obj} (h : ErrOk m) {e fd : Int}
    {l : List Int} (hl : os.fds = fd :: l) :
    ∃ err, cleanup strerror e fd os m = .ok (-1, { os with fds := l }, { m with err := err }) ∧ ErrOk { m with err := err } ∧
      TextOf strerror os.errno { m with err := err } := by
  obtain ⟨err, h1, h2, h3⟩ := fail_ok hs (os := { os with fds := l }) h
  refine ⟨err, ?_, h2, h3⟩
  unfold cleanup close
  rw [if_pos (by rw [hl]; simp)]
  simp only [Res.ok_bind, hl, List.erase_cons_head]
  exact h1

/-! ## Growing the file -/

theorem prefix_grow (data : List UInt8) (n : Nat) : data <+: grow data n := List.prefix_append ..

theorem length_grow (data : List UInt8) (n : Nat) : (grow data n).length = max data.length n := by
  simp [grow]; omega

theorem fallocate_spec {rc off len rc' : Int} {part : Nat} {data data' : List UInt8}
    (h : fallocate rc part off len data = (rc', data')) :
    data <+: data' ∧ (rc' = 0 → 0 ≤ off ∧ 0 < len ∧ off + len ≤ data'.length) ∧ (rc' = EINVAL ∨ rc' = rc) := by
  unfold fallocate at h
  split at h
  · injection h with h1 h2
    subst h1 h2
    exact ⟨List.prefix_refl _, fun h => absurd h (by decide), .inl rfl⟩
  · split at h
    · injection h with h1 h2
      subst h1 h2
      refine ⟨prefix_grow .., fun _ => ?_, .inr (by omega)⟩
      rw [length_grow]
      omega
    · injection h with h1 h2
      subst h1 h2
      exact ⟨prefix_grow .., fun e => absurd e (by assumption), .inr rfl⟩

theorem fallocLoop_spec {o : Out} {off len : Int} {fuel k : Nat} {data : List UInt8} {rc : Int} {data' : List UInt8}
    (h : fallocLoop o off len fuel k data = some (rc, data')) :
    data <+: data' ∧ (rc = 0 → 0 ≤ off ∧ 0 < len ∧ off + len ≤ data'.length) ∧ (rc = EINVAL ∨ ∃ k, rc = o.falloc k) ∧
      rc ≠ EINTR := by
  induction fuel generalizing k data with
  | zero => simp [fallocLoop] at h
  | succ fuel ih =>
    unfold fallocLoop at h
    cases hf : fallocate (o.falloc k) (o.part k) off len data with
    | mk r d =>
      rw [hf] at h
      obtain ⟨h1, h2, h3⟩ := fallocate_spec hf
      simp only at h
      split at h
      · obtain ⟨g1, g2⟩ := ih h
        exact ⟨h1.trans g1, g2⟩
      · rename_i hne
        simp only [Option.some.injEq, Prod.mk.injEq] at h
        obtain ⟨rfl, rfl⟩ := h
        exact ⟨h1, h2, h3.imp_right fun e => ⟨k, e⟩, hne⟩

/-! ## Creation -/

/-- Where an error can come from. -/
inductive ErrorOf (o : Out) : Int → Prop
  | page {e} : o.page = .error e → ErrorOf o e
  | opn {e} : o.opn = .error e → ErrorOf o e
  | stat {e} : o.stat = .error e → ErrorOf o e
  | falloc (k) : ErrorOf o (o.falloc k)
  | map {e} : o.map = .error e → ErrorOf o e
  | args : ErrorOf o EINVAL
  | space : ErrorOf o ENOMEM

theorem kmmap_error {r : Except Int Nat} {page : Int} {len : Nat} {off e : Int} (h : kmmap r page len off = .error e) :
    e = EINVAL ∨ e = ENOMEM ∨ r = .error e := by
  unfold kmmap at h
  grind

theorem kmmap_ok {r : Except Int Nat} {page : Int} {len : Nat} {off : Int} {p : Nat} (h : kmmap r page len off = .ok p) :
    r = .ok p ∧ len ≠ 0 ∧ 0 ≤ off ∧ off % page = 0 ∧ p + len ≤ 2 ^ 63 := by
  unfold kmmap at h
  grind

/-- A creation that failed: nothing is held, the object says so, and the text is that of the error
of the call that failed. -/
structure Failed (strerror : Int → List UInt8) (o : Out) (os os' : Os) (m : Obj) : Prop where
  fd : m.fd = -1
  ptr : m.ptr = 0
  len : m.len = 0
  fds : os'.fds = os.fds
  maps : os'.maps = os.maps
  data : os.data <+: os'.data
  err : ErrOk m
  cause : ErrorOf o os'.errno
  text : TextOf strerror os'.errno m

/-- A creation that succeeded: one descriptor and one mapping more. -/
structure Created (off : Nat) (os os' : Os) (m : Obj) : Prop where
  fd : 0 ≤ m.fd
  newFd : m.fd ∉ os.fds
  newMap : ∀ x ∈ os.maps, x.ptr ≠ m.ptr
  fds : os'.fds = m.fd :: os.fds
  maps : os'.maps = ⟨m.ptr, m.len, off⟩ :: os.maps
  data : os.data <+: os'.data
  err : ErrOk m

/-- What is mapped. -/
structure Covers (o : Out) (wr : Bool) (off len size : Nat) (os' : Os) (m : Obj) : Prop where
  page : o.page = .ok m.pageSize
  aligned : (off : Int) % m.pageSize = 0
  length : m.len = if len = 0 then size - off else len
  rest : len = 0 → off < size
  file : wr = true → off + m.len ≤ os'.data.length

theorem mapIt_ok {strerror : Int → List UInt8} (hs : Texts strerror) {o : Out} {fd page : Int} {off len : Nat} {os₀ os : Os}
    {m : Obj} (hm : m = ⟨-1, page, 0, 0, List.replicate 128 0⟩) (hf : o.Fresh os₀) (hfd : o.opn = .ok fd)
    (hfds : os.fds = fd :: os₀.fds) (hmaps : os.maps = os₀.maps) (hdata : os₀.data <+: os.data) :
    (∃ os' m', mapIt strerror o fd page off len os m = .ok (-1, os', m') ∧ Failed strerror o os₀ os' m') ∨
    (∃ os' m', mapIt strerror o fd page off len os m = .ok (0, os', m') ∧ Created off os₀ os' m' ∧ m'.len = len ∧
      m'.pageSize = page ∧ os'.data = os.data ∧ 0 ≤ toOff off ∧ toOff off % page = 0 ∧ 0 < len ∧ len ≤ 2 ^ 63) := by
  have he : ErrOk m := by subst hm; exact ⟨by simp, by simp⟩
  unfold mapIt
  cases hk : kmmap o.map page len (toOff off) with
  | error e =>
    left
    obtain ⟨err, h1, h2, h3⟩ := cleanup_ok hs (os := { os with errno := e }) he (e := o.close) hfds
    refine ⟨_, _, h1, ⟨by simp [hm], by simp [hm], by simp [hm], rfl, hmaps, hdata, h2, ?_, h3⟩⟩
    rcases kmmap_error hk with rfl | rfl | hk
    · exact .args
    · exact .space
    · exact .map hk
  | ok p =>
    right
    obtain ⟨h1, h2, h3, h4, h5⟩ := kmmap_ok hk
    obtain ⟨f1, f2⟩ := hf.fd fd hfd
    exact ⟨_, _, rfl, ⟨f1, f2, hf.map p h1, hfds, by simp [hmaps], hdata, he⟩, rfl, by simp [hm], rfl, h3, h4, by omega, by omega⟩

/-- How `sc_mmap_init` can end. -/
theorem init_cases {strerror : Int → List UInt8} (hs : Texts strerror) {fuel : Nat} {o : Out} {wr : Bool} {off len : Nat}
    {os : Os} (hf : o.Fresh os) :
    init strerror fuel o wr off len os = .ok none ∨
    (∃ os' m, init strerror fuel o wr off len os = .ok (some (-1, os', m)) ∧ Failed strerror o os os' m) ∨
    (∃ os' m size, init strerror fuel o wr off len os = .ok (some (0, os', m)) ∧ Created off os os' m ∧
      o.stat = .ok size ∧ o.page = .ok m.pageSize ∧ m.len = (if len = 0 then (size + (2 ^ 64 - off)) % 2 ^ 64 else len) ∧
      0 ≤ toOff off ∧ toOff off % m.pageSize = 0 ∧ 0 < m.len ∧ m.len ≤ 2 ^ 63 ∧
      (wr = true → 0 < toOff m.len ∧ toOff off + toOff m.len ≤ os'.data.length)) := by
  have he : ∀ p, ErrOk ⟨-1, p, 0, 0, List.replicate 128 0⟩ := fun p => ⟨by simp, by simp⟩
  unfold init
  cases hp : o.page with
  | error e =>
    right; left
    obtain ⟨err, h1, h2, h3⟩ := fail_ok hs (os := { os with errno := e }) (he 0)
    refine ⟨_, _, by simp only [h1, Res.ok_bind]; rfl, ?_⟩
    exact ⟨rfl, rfl, rfl, rfl, rfl, List.prefix_refl _, h2, .page hp, h3⟩
  | ok page =>
  cases ho : o.opn with
  | error e =>
    right; left
    obtain ⟨err, h1, h2, h3⟩ := fail_ok hs (os := { os with errno := e }) (he page)
    refine ⟨_, _, by simp only [h1, Res.ok_bind]; rfl, ?_⟩
    exact ⟨rfl, rfl, rfl, rfl, rfl, List.prefix_refl _, h2, .opn ho, h3⟩
  | ok fd =>
  cases hst : o.stat with
  | error e =>
    right; left
    obtain ⟨err, h1, h2, h3⟩ := cleanup_ok hs (os := { os with fds := fd :: os.fds, errno := e }) (he page) (e := o.close) rfl
    refine ⟨_, _, by simp only [h1, Res.ok_bind]; rfl, ?_⟩
    exact ⟨rfl, rfl, rfl, rfl, rfl, List.prefix_refl _, h2, .stat hst, h3⟩
  | ok size =>
  simp only
  generalize hlen : (if len = 0 then (size + (2 ^ 64 - off)) % 2 ^ 64 else len) = len'
  by_cases hw : wr = true
  · rw [if_pos hw]
    cases hl : fallocLoop o (toOff off) (toOff len') fuel 0 os.data with
    | none => left; rfl
    | some rd =>
      obtain ⟨rc, data⟩ := rd
      obtain ⟨g1, g2, g3, g4⟩ := fallocLoop_spec hl
      simp only
      by_cases hr : rc = 0
      · rw [if_neg (by simpa using hr)]
        rcases mapIt_ok hs (o := o) (fd := fd) (page := page) (off := off) (len := len')
          (os₀ := os) (os := { os with fds := fd :: os.fds, data := data }) rfl hf ho rfl rfl g1 with
          ⟨os', m', h1, h2⟩ | ⟨os', m', h1, h2, h3, h4, h5, h6, h7, h8, h9⟩
        · right; left
          exact ⟨os', m', by simp only [h1, Res.ok_bind], h2⟩
        · right; right
          subst h3 h4
          refine ⟨os', m', size, by simp only [h1, Res.ok_bind], h2, rfl, rfl, hlen.symm, h6, h7, h8, h9, fun _ => ?_⟩
          rw [h5]
          exact (g2 hr).2
      · rw [if_pos hr]
        right; left
        obtain ⟨err, h1, h2, h3⟩ := cleanup_ok hs (os := { os with fds := fd :: os.fds, data := data, errno := rc }) (he page)
          (e := o.close) rfl
        refine ⟨_, _, by simp only [h1, Res.ok_bind]; rfl, ?_⟩
        refine ⟨rfl, rfl, rfl, rfl, rfl, g1, h2, ?_, h3⟩
        rcases g3 with rfl | ⟨k, rfl⟩
        · exact .args
        · exact .falloc k
  · rw [if_neg hw]
    rcases mapIt_ok hs (o := o) (fd := fd) (page := page) (off := off) (len := len')
      (os₀ := os) (os := { os with fds := fd :: os.fds }) rfl hf ho rfl rfl (List.prefix_refl _) with
      ⟨os', m', h1, h2⟩ | ⟨os', m', h1, h2, h3, h4, h5, h6, h7, h8, h9⟩
    · right; left
      exact ⟨os', m', by simp only [h1, Res.ok_bind], h2⟩
    · right; right
      subst h3 h4
      exact ⟨os', m', size, by simp only [h1, Res.ok_bind], h2, rfl, rfl, hlen.symm, h6, h7, h8, h9, fun h => absurd h hw⟩

/-- Every creation that ends leaves nothing behind, or exactly one descriptor and one mapping. -/
theorem init_spec {strerror : Int → List UInt8} (hs : Texts strerror) {fuel : Nat} {o : Out} {wr : Bool} {off len : Nat}
    {os : Os} (hf : o.Fresh os) {r : Res (Option (Int × Os × Obj))} (h : init strerror fuel o wr off len os = r) :
    r = .ok none ∨ (∃ os' m, r = .ok (some (-1, os', m)) ∧ Failed strerror o os os' m) ∨
      (∃ os' m, r = .ok (some (0, os', m)) ∧ Created off os os' m) := by
  subst h
  rcases init_cases hs (fuel := fuel) (wr := wr) (off := off) (len := len) hf with h | h | ⟨os', m, size, h, h2, -⟩
  · exact .inl h
  · exact .inr (.inl h)
  · exact .inr (.inr ⟨os', m, h, h2⟩)

/-- What a successful creation maps: the range asked for, or the rest of the file; a file to be
written is long enough.
Missing: Apple, where it fails (`apple_offset_violated`). -/
theorem init_covers_partial {strerror : Int → List UInt8} (hs : Texts strerror) {fuel : Nat} {o : Out} {wr : Bool} {off len size : Nat}
    {os os' : Os} {m : Obj} (hf : o.Fresh os) (hst : o.stat = .ok size) (hsz : size < 2 ^ 63) (ho : off < 2 ^ 64)
    (h : init strerror fuel o wr off len os = .ok (some (0, os', m))) : Covers o wr off len size os' m := by
  rcases init_cases hs (fuel := fuel) (wr := wr) (off := off) (len := len) hf with h' | ⟨_, _, h', -⟩ |
    ⟨os'', m', size', h', h2, h3, h4, h5, h6, h7, h8, h9, h10⟩
  · rw [h] at h'; simp at h'
  · rw [h] at h'; simp at h'
  · rw [h] at h'
    simp only [Res.ok.injEq, Option.some.injEq, Prod.mk.injEq, true_and] at h'
    obtain ⟨rfl, rfl⟩ := h'
    rw [hst] at h3
    injection h3 with h3
    subst h3
    have hoff : off < 2 ^ 63 := by
      unfold toOff at h6
      split at h6 <;> omega
    have hto : toOff off = off := by unfold toOff; rw [if_pos hoff]
    have hlen : len = 0 → off < size ∧ m.len = size - off := by
      intro hl
      rw [if_pos hl] at h5
      omega
    refine ⟨h4, by rw [← hto]; exact h7, ?_, fun hl => (hlen hl).1, fun hw => ?_⟩
    · by_cases hl : len = 0
      · rw [if_pos hl]; exact (hlen hl).2
      · rw [if_neg hl] at h5 ⊢; exact h5
    · obtain ⟨g1, g2⟩ := h10 hw
      have : toOff m.len = m.len := by
        unfold toOff at g1 ⊢
        split
        · rfl
        · rw [if_neg (by assumption)] at g1; omega
      rw [hto, this] at g2
      omega

/-- What an object stands for, given what the process had before. -/
structure Holds (base : Os) (s : State) (x : Spec.State) : Prop where
  fds : s.os.fds = x.fds ++ base.fds
  maps : s.os.maps = x.maps ++ base.maps
  none : x.held = none → s.m.fd = -1
  some : ∀ fd y, x.held = some (fd, y) → s.m.fd = fd ∧ s.m.ptr = y.ptr ∧ s.m.len = y.len ∧ fd ≠ -1 ∧
    ∀ z ∈ x.lost ++ base.maps, z.ptr ≠ y.ptr
  err : ErrOk s.m

/-- `sc_mmap_term` never closes or unmaps what is not the object's. -/
theorem term_ok {strerror : Int → List UInt8} (hs : Texts strerror) {base : Os} {s : State} {x : Spec.State}
    (h : Holds base s x) (r : Except Int Unit) :
    ∃ rc os m, term strerror r s.os s.m = .ok (rc, os, m) ∧
      ((rc = 0 ∧ Holds base ⟨os, m⟩ ⟨none, x.lost⟩) ∨
       (rc = -1 ∧ TextOf strerror os.errno m ∧ r = .error os.errno ∧ ∃ fd y, x.held = some (fd, y) ∧
         Holds base ⟨os, m⟩ ⟨none, y :: x.lost⟩)) := by
  obtain ⟨held, lost⟩ := x
  obtain ⟨os, m⟩ := s
  cases held with
  | none =>
    have hfd := h.none rfl
    refine ⟨0, os, m, by unfold term; rw [if_pos hfd], .inl ⟨rfl, ⟨h.fds, h.maps, fun _ => hfd, fun _ _ e => (nomatch e), h.err⟩⟩⟩
  | some p =>
    obtain ⟨fd, y⟩ := p
    obtain ⟨h1, h2, h3, h4, h5⟩ := h.some fd y rfl
    have hfds : os.fds = fd :: base.fds := h.fds
    have hmaps : os.maps = y :: (lost ++ base.maps) := h.maps
    simp only at h1 h2 h3
    have hc : close os m.fd = .ok { os with fds := base.fds } := by
      unfold close
      rw [if_pos (by rw [hfds, h1]; simp), hfds, h1, List.erase_cons_head]
    have hfind : os.maps.find? (fun x => x.ptr = m.ptr ∧ x.len = m.len) = some y := by
      rw [hmaps, h2, h3]; simp
    unfold term
    rw [if_neg (by rw [h1]; exact h4)]
    simp only [hc, Res.ok_bind, munmap, hfind]
    cases r with
    | error e =>
      obtain ⟨err, g1, g2, g3, -⟩ := note_ok hs (rc := -1) (os := { os with fds := base.fds, errno := e }) h.err
      simp only [g1, Res.ok_bind]
      refine ⟨_, _, _, rfl, .inr ⟨rfl, g3 (by decide), rfl, fd, y, rfl, ⟨rfl, hmaps, fun _ => rfl, fun _ _ e => (nomatch e), g2⟩⟩⟩
    | ok u =>
      obtain ⟨err, g1, g2, -, g4⟩ := note_ok hs (rc := 0) (os := { os with fds := base.fds, maps := os.maps.erase y }) h.err
      simp only [g1, Res.ok_bind]
      refine ⟨_, _, _, rfl, .inl ⟨rfl, ⟨rfl, ?_, fun _ => rfl, fun _ _ e => (nomatch e), g2⟩⟩⟩
      rw [hmaps, List.erase_cons_head]
      rfl

/-- A destruction leaves no pointer and no length behind in the object, whether unmapping succeeds or not. -/
theorem term_clears {strerror : Int → List UInt8} {r : Except Int Unit} {os os' : Os} {m m' : Obj} {rc : Int}
    (h : term strerror r os m = .ok (rc, os', m')) (hm : m.fd ≠ -1) :
    m'.fd = -1 ∧ m'.ptr = 0 ∧ m'.len = 0 ∧ m'.pageSize = m.pageSize := by
  unfold term at h
  rw [if_neg hm] at h
  obtain ⟨_, -, h⟩ := Res.bind_eq_ok.1 h
  obtain ⟨⟨rc1, os1⟩, -, h⟩ := Res.bind_eq_ok.1 h
  obtain ⟨m1, hn, h⟩ := Res.bind_eq_ok.1 h
  cases h
  refine ⟨rfl, rfl, rfl, ?_⟩
  unfold note at hn
  split at hn
  · obtain ⟨e, -, hn⟩ := Res.bind_eq_ok.1 hn
    cases hn; rfl
  · cases hn; rfl

theorem range_ok {strerror : Int → List UInt8} (hs : Texts strerror) {base : Os} {s : State} {x : Spec.State}
    (h : Holds base s x) (r : Except Int Unit) {os' : Os} {m' : Obj}
    (hr : (rangeRes r s.os).2 = os') (hn : note strerror (rangeRes r s.os).1 os' s.m = .ok m') :
    Holds base ⟨os', m'⟩ x ∧ ((rangeRes r s.os).1 ≠ 0 → TextOf strerror os'.errno m') := by
  obtain ⟨err, g1, g2, g3, -⟩ := note_ok hs (rc := (rangeRes r s.os).1) (os := os') h.err
  rw [g1] at hn
  injection hn with hn
  subst hn
  have e1 : os'.fds = s.os.fds := by subst hr; cases r <;> rfl
  have e2 : os'.maps = s.os.maps := by subst hr; cases r <;> rfl
  exact ⟨⟨by rw [← h.fds, ← e1], by rw [← h.maps, ← e2], h.none, h.some, g2⟩, g3⟩

theorem step_spec {strerror : Int → List UInt8} (hs : Texts strerror) {base : Os} {s s' : State} {e : Event} {x : Spec.State}
    (h : Holds base s x) (st : Step strerror s e s') : ∃ x', Spec.Step x e x' ∧ Holds base s' x' := by
  have idle : s.m.fd = -1 → x = ⟨none, x.lost⟩ := by
    intro hm
    obtain ⟨held, lost⟩ := x
    cases held with
    | none => rfl
    | some p => obtain ⟨e, -, -, e', -⟩ := h.some p.1 p.2 rfl; rw [hm] at e; exact absurd e.symm e'
  cases st with
  | @created fuel o wr off len os m hm hf hi =>
    rcases init_cases hs (fuel := fuel) (wr := wr) (off := off) (len := len) hf with h' | ⟨_, _, h', -⟩ | ⟨os', m', size, h', h2, -⟩
    · rw [hi] at h'; simp at h'
    · rw [hi] at h'; simp at h'
    · rw [hi] at h'
      simp only [Res.ok.injEq, Option.some.injEq, Prod.mk.injEq, true_and] at h'
      obtain ⟨rfl, rfl⟩ := h'
      rw [idle hm] at h ⊢
      refine ⟨_, .created, ⟨?_, ?_, fun e => (nomatch e), ?_, h2.err⟩⟩
      · rw [h2.fds, h.fds]; rfl
      · rw [h2.maps, h.maps]; rfl
      · intro fd y e
        simp only [Option.some.injEq, Prod.mk.injEq] at e
        obtain ⟨rfl, rfl⟩ := e
        refine ⟨rfl, rfl, rfl, ?_, ?_⟩
        · have := h2.fd; omega
        · intro z hz
          exact h2.newMap z (by rw [h.maps]; exact hz)
  | @failed fuel o wr off len os m hm hf hi =>
    rcases init_cases hs (fuel := fuel) (wr := wr) (off := off) (len := len) hf with h' | ⟨os', m', h', h2⟩ | ⟨os', m', size, h', -⟩
    · rw [hi] at h'; simp at h'
    · rw [hi] at h'
      simp only [Res.ok.injEq, Option.some.injEq, Prod.mk.injEq, true_and] at h'
      obtain ⟨rfl, rfl⟩ := h'
      rw [idle hm] at h ⊢
      exact ⟨_, .failed, ⟨by rw [h2.fds, h.fds], by rw [h2.maps, h.maps], fun _ => h2.fd, fun _ _ e => (nomatch e), h2.err⟩⟩
    · rw [hi] at h'; simp at h'
  | @destroyed r os m ht =>
    obtain ⟨rc, os', m', h1, h2⟩ := term_ok hs h r
    rw [ht] at h1
    simp only [Res.ok.injEq, Prod.mk.injEq] at h1
    obtain ⟨rfl, rfl, rfl⟩ := h1
    rcases h2 with ⟨-, h2⟩ | ⟨h2, -⟩
    · exact ⟨_, .destroyed, h2⟩
    · simp at h2
  | @stuck r os m ht =>
    obtain ⟨rc, os', m', h1, h2⟩ := term_ok hs h r
    rw [ht] at h1
    simp only [Res.ok.injEq, Prod.mk.injEq] at h1
    obtain ⟨rfl, rfl, rfl⟩ := h1
    rcases h2 with ⟨h2, -⟩ | ⟨-, -, -, fd, y, h3, h4⟩
    · simp at h2
    · obtain ⟨held, lost⟩ := x
      simp only at h3
      subst h3
      exact ⟨_, .stuck, h4⟩
  | @synced r off len rc rg os m ht =>
    unfold msync at ht
    simp only [Res.bind_eq_ok, Res.ok.injEq, Prod.mk.injEq] at ht
    obtain ⟨m', h1, -, -, rfl, rfl⟩ := ht
    exact ⟨x, .used, (range_ok hs h r rfl h1).1⟩
  | @locked r off len rc rg os m ht =>
    unfold mlock at ht
    simp only [Res.bind_eq_ok, Res.ok.injEq, Prod.mk.injEq] at ht
    obtain ⟨m', h1, -, -, rfl, rfl⟩ := ht
    exact ⟨x, .used, (range_ok hs h r rfl h1).1⟩

/-- An object that stands for nothing, with a process that holds what it holds. -/
def Idle (s : State) : Prop := s.m.fd = -1 ∧ ErrOk s.m

theorem run_spec {strerror : Int → List UInt8} (hs : Texts strerror) {s s' : State} (hi : Idle s) {es : List Event}
    (r : Run strerror s es s') : ∃ x, Spec.Run ⟨none, []⟩ es x ∧ Holds s.os s' x := by
  induction r with
  | refl => exact ⟨_, .refl, ⟨rfl, rfl, fun _ => hi.1, fun _ _ e => (nomatch e), hi.2⟩⟩
  | step r st ih =>
    obtain ⟨x, h1, h2⟩ := ih
    obtain ⟨x', h3, h4⟩ := step_spec hs h2 st
    exact ⟨x', .step h1 h3, h4⟩

/-- **C68.** Whatever is done with an object, and whatever fails, the process holds what it held
before, and one descriptor and one mapping if the object stands for a map; and the mappings the
system refused to remove. -/
theorem resources {strerror : Int → List UInt8} (hs : Texts strerror) {s s' : State} (hi : Idle s) {es : List Event}
    (r : Run strerror s es s') : ∃ x, Spec.Run ⟨none, []⟩ es x ∧ s'.os.fds = x.fds ++ s.os.fds ∧
      s'.os.maps = x.maps ++ s.os.maps := by
  obtain ⟨x, h1, h2⟩ := run_spec hs hi r
  exact ⟨x, h1, h2.fds, h2.maps⟩

/-- **C68.** No call closes or unmaps what is not the object's: all of them are defined. -/
theorem no_ub {strerror : Int → List UInt8} (hs : Texts strerror) {s s' : State} (hi : Idle s) {es : List Event}
    (run : Run strerror s es s') (r : Except Int Unit) (off len : Nat) :
    (∃ y, term strerror r s'.os s'.m = .ok y) ∧ (∃ y, msync strerror r s'.os s'.m off len = .ok y) ∧
      (∃ y, mlock strerror r s'.os s'.m off len = .ok y) ∧
      ∀ (fuel : Nat) (o : Out) (wr : Bool), o.Fresh s'.os → ∃ y, init strerror fuel o wr off len s'.os = .ok y := by
  obtain ⟨x, -, h⟩ := run_spec hs hi run
  refine ⟨?_, ?_, ?_, ?_⟩
  · obtain ⟨rc, os, m, h1, -⟩ := term_ok hs h r
    exact ⟨_, h1⟩
  · obtain ⟨err, g1, -⟩ := note_ok hs (rc := (rangeRes r s'.os).1) (os := (rangeRes r s'.os).2) h.err
    unfold msync
    simp only [g1, Res.ok_bind]
    exact ⟨_, rfl⟩
  · obtain ⟨err, g1, -⟩ := note_ok hs (rc := (rangeRes r s'.os).1) (os := (rangeRes r s'.os).2) h.err
    unfold mlock
    simp only [g1, Res.ok_bind]
    exact ⟨_, rfl⟩
  · intro fuel o wr hf
    rcases init_cases hs (fuel := fuel) (wr := wr) (off := off) (len := len) hf with h' | ⟨_, _, h', -⟩ | ⟨_, _, _, h', -⟩ <;>
      exact ⟨_, h'⟩

/-- **C68.** After a destruction, or a creation that failed, another destruction does nothing. -/
theorem term_again {strerror : Int → List UInt8} (hs : Texts strerror) {s s' : State} (hi : Idle s) {es : List Event}
    {e : Event} (run : Run strerror s (es ++ [e]) s') (he : e = .destroyed ∨ e = .stuck ∨ e = .failed)
    (r : Except Int Unit) : term strerror r s'.os s'.m = .ok (0, s'.os, s'.m) := by
  obtain ⟨x, h1, h2⟩ := run_spec hs hi run
  have hx : x.held = none := by
    generalize hl : es ++ [e] = l at h1
    cases h1 with
    | refl => simp at hl
    | @step s' _ e' es' h1 h3 =>
      have := List.append_inj_right' hl rfl
      simp only [List.cons.injEq, and_true] at this
      subst this
      cases h3 <;> simp_all
  unfold term
  rw [if_pos (h2.none hx)]

theorem _root_.Verif.CStr.exists_of_nul {mem : List UInt8} {n : Nat} (h : mem[n]? = some 0) :
    ∃ t, CStr mem 0 t ∧ t.length ≤ n := by
  induction n using Nat.strongRecOn with
  | ind n ih =>
    by_cases hz : ∃ i, i < n ∧ mem[i]? = some 0
    · obtain ⟨i, hi, h0⟩ := hz
      obtain ⟨t, h1, h2⟩ := ih i hi h0
      exact ⟨t, h1, by omega⟩
    · have hn : n < mem.length := by
        rcases Nat.lt_or_ge n mem.length with h' | h'
        · exact h'
        · rw [List.getElem?_eq_none h'] at h; cases h
      have hl : (mem.take n).length = n := by simp; omega
      refine ⟨mem.take n, ⟨?_, ?_, by rw [hl, Nat.zero_add]; exact h⟩, by omega⟩
      · intro i hi
        rw [Nat.zero_add, ← List.getElem?_eq_getElem hi, List.getElem?_take, if_pos (by omega)]
      · intro b hb e
        obtain ⟨i, hi⟩ := List.getElem?_of_mem hb
        rw [List.getElem?_take] at hi
        split at hi
        · exact hz ⟨i, by assumption, by rw [hi, e]⟩
        · cases hi

/-- The text of the object is a string at any time after the first creation. -/
theorem err_string {strerror : Int → List UInt8} (hs : Texts strerror) {s s' : State} (hi : Idle s) {es : List Event}
    (r : Run strerror s es s') : ∃ t, CStr s'.m.err 0 t ∧ t.length ≤ 127 := by
  obtain ⟨x, -, h⟩ := run_spec hs hi r
  obtain ⟨h1, h2⟩ := h.err
  exact CStr.exists_of_nul h2

end Verif.Mmap
