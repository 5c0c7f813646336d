import Verif.Mmap.Crash

/-!
# Creating a memory map on Windows: what happens to the file, and the text of the error

`winInit` in `Verif.Mmap.Model` has the resources; here are the contents of the file, the size of the mapping object, the last
error of the thread and its text.
-/

namespace Verif.Mmap.Win

open Crash (winErrstr)

/-- The file and `GetLastError` -/
structure Sys where
  data : List UInt8
  last : Nat
  deriving DecidableEq

/-- What the system makes of the calls: an error leaves its number. `_open` and `_stat64` are of the C library, and leave whatever the
calls they make leave. `closed` and `closedFd` are what `CloseHandle` and `_close` make of the last error. `msg` is `FormatMessageA`. -/
structure Fate where
  opn : Except Nat Int
  stat : Option Nat
  handle : Option Nat
  create : Option Nat
  view : Except Nat Nat
  closed : Nat → Nat
  closedFd : Nat → Nat
  msg : Nat → Option (List UInt8)

/-- `CreateFileMapping` for a file: the size of the mapping, or an error. A size of 0 stands for the size of the file, which then
must not be empty; a file that is too small is made longer if it may be written to. -/
def createFile (fate : Option Nat) (wr : Bool) (size : Nat) (s : Sys) : Option Nat × Sys :=
  match fate with
  | some e => (none, { s with last := e })
  | none =>
    if size = 0 then
      if s.data.length = 0 then (none, { s with last := 1006 }) else (some s.data.length, s)
    else if s.data.length < size then
      if wr then (some size, { s with data := grow s.data size }) else (none, { s with last := 8 })
    else (some size, s)

/-- `CreateFileMapping` for memory that is no file -/
def createAnon (fate : Option Nat) (size : Nat) (s : Sys) : Option Nat × Sys :=
  match fate with
  | some e => (none, { s with last := e })
  | none => if size = 0 then (none, { s with last := 87 }) else (some size, s)

/-- `MapViewOfFile`: the offset must be a multiple of 64 kB and the view must lie in the mapping; a length of 0 stands for all
from the offset on. -/
def view (fate : Except Nat Nat) (size off len : Nat) (s : Sys) : Option Nat × Sys :=
  if off % 65536 ≠ 0 then (none, { s with last := 1132 })
  else if off + len > size ∨ off ≥ size then (none, { s with last := 5 })
  else match fate with
    | .error e => (none, { s with last := e })
    | .ok p => (some p, s)

/-- Label `error`, memory-map/sc_mmap.c:130-133 -/
def fail (f : Fate) (s : Sys) (m : Obj) : Res (Int × Sys × Obj) := do
  let m ← winErrstr (f.msg s.last) m
  .ok (-1, s, m)

/-- Label `cleanup_fd`, memory-map/sc_mmap.c:126-129 -/
def cleanup (f : Fate) (s : Sys) (m : Obj) : Res (Int × Sys × Obj) :=
  let saved := s.last
  let s := { s with last := f.closedFd s.last }
  fail f { s with last := saved } m

/-- A number put together from its halves, memory-map/sc_mmap.c:91-94 -/
def halves (n : Nat) : Nat := ((n >>> 32) &&& 0xFFFFFFFF) * 2 ^ 32 + (n &&& 0xFFFFFFFF)

/-- An object that stands for nothing, memory-map/sc_mmap.c:73-77 -/
def blank : Obj := { fd := -1, pageSize := 0, ptr := 0, len := 0, err := List.replicate 128 0 }

/-- The view, memory-map/sc_mmap.c:111-124: `size` is that of the mapping. -/
def mapIt (f : Fate) (fd : Int) (off len size : Nat) (s : Sys) : Res (Int × Sys × Obj) :=
  match view f.view size off len s with
  | (none, s) => cleanup f { s with last := f.closed s.last } blank
  | (some p, s) => .ok (0, { s with last := f.closed s.last }, { blank with fd := fd, ptr := p, len := len })

/-- The mapping, memory-map/sc_mmap.c:106-109 -/
def create (f : Fate) (wr anon : Bool) (size : Nat) (s : Sys) : Option Nat × Sys :=
  if anon then createAnon f.create size s else createFile f.create wr size s

/-- memory-map/sc_mmap.c:106-124, once the file is open and the numbers are put together; `max` is `max_size`. -/
def opened (f : Fate) (wr anon : Bool) (fd : Int) (off max len : Nat) (s : Sys) : Res (Int × Sys × Obj) :=
  match create f wr anon max s with
  | (none, s) => cleanup f s blank
  | (some size, s) => mapIt f fd off len size s

/-- `sc_mmap_init`, memory-map/sc_mmap.c:65-134: `wr` is whether `prot` has `PROT_WRITE`, `anon` whether `map_flags` has
`MAP_ANONYMOUS`. -/
def init (f : Fate) (wr anon : Bool) (off len : Nat) (s : Sys) : Res (Int × Sys × Obj) :=
  match f.opn with
  | .error e => fail f { s with last := e } blank
  | .ok fd =>
    match f.stat with
    | some e => cleanup f { s with last := e } blank
    | none =>
      match (if anon then none else f.handle) with
      | some e => cleanup f { s with last := e } blank
      | none =>
        let len := if len = 0 then sub64 s.data.length off else len
        opened f wr anon fd (halves off) (halves (add64 off len)) len s

/-! ## What can be relied on -/

theorem halves_eq {n : Nat} (h : n < 2 ^ 64) : halves n = n := Mmap.halves h

theorem createFile_spec {fate : Option Nat} {wr : Bool} {size : Nat} {s s' : Sys} {r : Option Nat} (h : createFile fate wr size s = (r, s')) :
    s.data <+: s'.data ∧ (wr = false → s'.data = s.data) ∧ (∀ n, r = some n → n ≤ s'.data.length ∧ (size ≠ 0 → n = size) ∧ s'.last = s.last) := by
  unfold createFile at h
  cases fate with
  | some e => cases h; exact ⟨List.prefix_refl _, fun _ => rfl, fun n hn => by cases hn⟩
  | none =>
    simp only at h
    by_cases h0 : size = 0
    · rw [if_pos h0] at h
      split at h
      · cases h; exact ⟨List.prefix_refl _, fun _ => rfl, fun n hn => by cases hn⟩
      · cases h; exact ⟨List.prefix_refl _, fun _ => rfl, fun n hn => by cases hn; exact ⟨Nat.le_refl _, fun h => absurd h0 h, rfl⟩⟩
    · rw [if_neg h0] at h
      by_cases hl : s.data.length < size
      · rw [if_pos hl] at h
        cases wr with
        | true =>
          rw [if_pos rfl] at h
          cases h
          refine ⟨prefix_grow _ _, fun h => (by cases h), fun n hn => ?_⟩
          cases hn
          refine ⟨?_, fun _ => rfl, rfl⟩
          rw [length_grow]
          omega
        | false =>
          rw [if_neg (by decide)] at h
          cases h
          exact ⟨List.prefix_refl _, fun _ => rfl, fun n hn => by cases hn⟩
      · rw [if_neg hl] at h
        cases h
        exact ⟨List.prefix_refl _, fun _ => rfl, fun n hn => by cases hn; exact ⟨by omega, fun _ => rfl, rfl⟩⟩

theorem createAnon_spec {fate : Option Nat} {size : Nat} {s s' : Sys} {r : Option Nat} (h : createAnon fate size s = (r, s')) :
    s'.data = s.data ∧ (∀ n, r = some n → n = size ∧ n ≠ 0 ∧ s'.last = s.last) := by
  unfold createAnon at h
  cases fate with
  | some e => cases h; exact ⟨rfl, fun n hn => by cases hn⟩
  | none =>
    simp only at h
    split at h
    · cases h; exact ⟨rfl, fun n hn => by cases hn⟩
    · next h0 => cases h; exact ⟨rfl, fun n hn => by cases hn; exact ⟨rfl, h0, rfl⟩⟩

theorem view_spec {fate : Except Nat Nat} {size off len : Nat} {s s' : Sys} {r : Option Nat} (h : view fate size off len s = (r, s')) :
    s'.data = s.data ∧ (∀ p, r = some p → off % 65536 = 0 ∧ off + len ≤ size ∧ off < size ∧ fate = .ok p) := by
  unfold view at h
  by_cases h1 : off % 65536 = 0
  · rw [if_neg (by simpa using h1)] at h
    by_cases h2 : off + len > size ∨ off ≥ size
    · rw [if_pos h2] at h; cases h; exact ⟨rfl, fun n hn => by cases hn⟩
    · rw [if_neg h2] at h
      cases fate with
      | error e => cases h; exact ⟨rfl, fun n hn => by cases hn⟩
      | ok p => cases h; exact ⟨rfl, fun n hn => by cases hn; exact ⟨h1, by omega, by omega, rfl⟩⟩
  · rw [if_pos h1] at h; cases h; exact ⟨rfl, fun n hn => by cases hn⟩

/-- The texts of the system are strings. -/
def Texts (f : Fate) : Prop := ∀ e t, f.msg e = some t → ∃ s, CStr t 0 s

/-- The object shows the text of an error, if there is one, as far as it fits. -/
def Shows (f : Fate) (e : Nat) (m : Obj) : Prop :=
  (∀ t s, f.msg e = some t → CStr t 0 s → CStr m.err 0 (s.take 127)) ∧ (f.msg e = none → CStr m.err 0 [])

theorem fail_spec {f : Fate} (ht : Texts f) (s : Sys) :
    ∃ m, fail f s blank = .ok (-1, s, m) ∧ m.fd = -1 ∧ ErrOk m ∧ Shows f s.last m := by
  have he : ErrOk blank := ⟨rfl, rfl⟩
  unfold fail winErrstr
  cases hm : f.msg s.last with
  | none =>
    refine ⟨blank, rfl, rfl, he, by simp [hm], fun _ => ⟨fun i hi => by simp at hi, by simp, rfl⟩⟩
  | some t =>
    obtain ⟨x, hx⟩ := ht _ _ hm
    obtain ⟨d, h1, h2, h3, h4⟩ := store (err := blank.err) hx he.1 he.2
    refine ⟨{ blank with err := d }, ?_, rfl, ⟨h2, h3⟩, ?_, by simp [hm]⟩
    · simp only [h1, Res.ok_bind]
    · intro t' x' h h'
      rw [hm] at h
      cases h
      rw [hx.unique h'] at h4
      exact h4

theorem cleanup_spec {f : Fate} (ht : Texts f) (s : Sys) :
    ∃ m, cleanup f s blank = .ok (-1, s, m) ∧ m.fd = -1 ∧ ErrOk m ∧ Shows f s.last m := fail_spec ht s

/-- The last error `e` is that of the call that failed; when it was `MapViewOfFile`, it is what `CloseHandle` made of it. -/
def Cause (f : Fate) (wr anon : Bool) (s : Sys) (e : Nat) : Prop :=
  f.opn = .error e ∨ f.stat = some e ∨ (anon = false ∧ f.handle = some e) ∨
  (∃ size s₁, create f wr anon size s = (none, s₁) ∧ e = s₁.last) ∨
  (∃ max size off len s₁ s₂, create f wr anon max s = (some size, s₁) ∧ view f.view size off len s₁ = (none, s₂) ∧ e = f.closed s₂.last)

/-- How a creation fails. -/
structure Failed (f : Fate) (wr anon : Bool) (s s' : Sys) (m : Obj) : Prop where
  fd : m.fd = -1
  err : ErrOk m
  /-- what was in the file is still there, at its place -/
  kept : s.data <+: s'.data
  same : wr = false ∨ anon = true → s'.data = s.data
  text : Shows f s'.last m
  cause : Cause f wr anon s s'.last

/-- How a creation succeeds. -/
structure Created (f : Fate) (wr anon : Bool) (off len : Nat) (s s' : Sys) (m : Obj) : Prop where
  opened : f.opn = .ok m.fd
  mapped : f.view = .ok m.ptr
  err : ErrOk m
  size : m.len = if len = 0 then s.data.length - off else len
  ranged : len = 0 → anon = false → off < s.data.length
  aligned : off % 65536 = 0
  kept : s.data <+: s'.data
  same : wr = false ∨ anon = true → s'.data = s.data
  /-- the file has all that is mapped -/
  covers : anon = false → off + m.len ≤ s'.data.length
  positive : 0 < m.len

/-- One of the two -/
def Ends (f : Fate) (wr anon : Bool) (off len : Nat) (s : Sys) (r : Res (Int × Sys × Obj)) : Prop :=
  ∃ rc s' m, r = .ok (rc, s', m) ∧ ((rc = -1 ∧ Failed f wr anon s s' m) ∨ (rc = 0 ∧ Created f wr anon off len s s' m))

theorem stop {f : Fate} (ht : Texts f) {wr anon : Bool} {off len : Nat} {s s' : Sys} (h1 : s.data <+: s'.data)
    (h2 : wr = false ∨ anon = true → s'.data = s.data) (h3 : Cause f wr anon s s'.last) : Ends f wr anon off len s (cleanup f s' blank) := by
  obtain ⟨m, g1, g2, g3, g4⟩ := cleanup_spec ht s'
  exact ⟨-1, s', m, g1, Or.inl ⟨rfl, g2, g3, h1, h2, g4, h3⟩⟩

/-- The mapping has a size that the file has, too. -/
theorem create_spec {f : Fate} {wr anon : Bool} {size : Nat} {s s' : Sys} {r : Option Nat} (h : create f wr anon size s = (r, s')) :
    s.data <+: s'.data ∧ (wr = false ∨ anon = true → s'.data = s.data) ∧ (size ≤ s.data.length → s'.data = s.data) ∧
    (∀ n, r = some n → (anon = false → n ≤ s'.data.length) ∧ (anon = true → n = size)) := by
  unfold create at h
  cases anon with
  | true =>
    rw [if_pos rfl] at h
    obtain ⟨h1, h2⟩ := createAnon_spec h
    exact ⟨by rw [h1]; exact List.prefix_refl _, fun _ => h1, fun _ => h1, fun n hn => ⟨fun h => (by cases h), fun _ => (h2 n hn).1⟩⟩
  | false =>
    rw [if_neg (by decide)] at h
    obtain ⟨h1, h2, h3⟩ := createFile_spec h
    refine ⟨h1, fun h => h2 (by simpa using h), fun hle => ?_, fun n hn => ⟨fun _ => (h3 n hn).1, fun h => (by cases h)⟩⟩
    unfold createFile at h
    cases hfc : f.create with
    | some e => rw [hfc] at h; cases h; rfl
    | none =>
      rw [hfc] at h
      simp only at h
      split at h
      · split at h
        · cases h; rfl
        · cases h; rfl
      · rw [if_neg (by omega)] at h; cases h; rfl

theorem opened_spec {f : Fate} (ht : Texts f) {wr anon : Bool} {fd : Int} (hf : f.opn = .ok fd) {off len n : Nat} {s : Sys} (ho : off < 2 ^ 64)
    (hl : len < 2 ^ 64) (hd : s.data.length < 2 ^ 63) (ha : anon = true → len ≠ 0) (hn : n = if len = 0 then sub64 s.data.length off else len) :
    Ends f wr anon off len s (opened f wr anon fd off (add64 off n) n s) := by
  have hn64 : n < 2 ^ 64 := by
    rw [hn]
    split
    · unfold sub64; exact Nat.mod_lt _ (by decide)
    · exact hl
  unfold opened
  cases hc : create f wr anon (add64 off n) s with
  | mk r s₁ =>
  obtain ⟨k1, k2, k3, k4⟩ := create_spec hc
  cases r with
  | none => exact stop ht k1 k2 (.inr (.inr (.inr (.inl ⟨_, _, hc, rfl⟩))))
  | some size =>
    obtain ⟨k5, k6⟩ := k4 size rfl
    show Ends f wr anon off len s (mapIt f fd off n size s₁)
    unfold mapIt
    cases hv : view f.view size off n s₁ with
    | mk p s₂ =>
    obtain ⟨v1, v2⟩ := view_spec hv
    cases p with
    | none =>
      refine stop ht ?_ ?_ (.inr (.inr (.inr (.inr ⟨_, _, _, _, _, _, hc, hv, rfl⟩))))
      · show s.data <+: s₂.data
        rw [v1]; exact k1
      · intro h
        show s₂.data = s.data
        rw [v1]; exact k2 h
    | some p =>
      obtain ⟨w1, w2, w3, w4⟩ := v2 p rfl
      have hrange : len = 0 → anon = false → off < s.data.length ∧ n = s.data.length - off := by
        intro h0 h1
        rw [if_pos h0] at hn
        have hs := k5 h1
        have hadd : add64 off n = s.data.length := by
          rw [hn]; unfold add64 sub64; omega
        rw [k3 (by omega)] at hs
        refine ⟨by omega, ?_⟩
        rw [hn]
        unfold sub64
        omega
      have hsize : n = if len = 0 then s.data.length - off else len := by
        by_cases h0 : len = 0
        · rw [if_pos h0]
          cases hanon : anon with
          | true => exact absurd h0 (ha hanon)
          | false => exact (hrange h0 hanon).2
        · rw [if_neg h0] at hn ⊢; exact hn
      have hpos : 0 < n := by
        by_cases h0 : len = 0
        · cases hanon : anon with
          | true => exact absurd h0 (ha hanon)
          | false => have := hrange h0 hanon; omega
        · rw [if_neg h0] at hn; omega
      refine ⟨0, _, _, rfl, Or.inr ⟨rfl, hf, w4, ⟨rfl, rfl⟩, hsize, fun h0 h1 => (hrange h0 h1).1, w1, ?_, ?_, ?_, hpos⟩⟩
      · show s.data <+: s₂.data
        rw [v1]; exact k1
      · intro h
        show s₂.data = s.data
        rw [v1]; exact k2 h
      · intro h
        show off + n ≤ s₂.data.length
        rw [v1]
        have := k5 h
        omega

/-- **C90, C91 and C92, on Windows.** A creation never touches what is in the file; if it succeeds, the file has all of the range asked for; if
it fails, the object stands for nothing and shows the text of the error of the call that failed, which closing the file does not change. -/
theorem init_spec {f : Fate} (ht : Texts f) {wr anon : Bool} {off len : Nat} {s : Sys} (ho : off < 2 ^ 64) (hl : len < 2 ^ 64)
    (hd : s.data.length < 2 ^ 63) (ha : anon = true → len ≠ 0) : Ends f wr anon off len s (init f wr anon off len s) := by
  unfold init
  cases hop : f.opn with
  | error e =>
    obtain ⟨m, g1, g2, g3, g4⟩ := fail_spec ht { s with last := e }
    exact ⟨-1, _, m, g1, Or.inl ⟨rfl, g2, g3, List.prefix_refl _, fun _ => rfl, g4, .inl hop⟩⟩
  | ok fd =>
    cases hst : f.stat with
    | some e => exact stop (s' := { s with last := e }) ht (List.prefix_refl _) (fun _ => rfl) (.inr (.inl hst))
    | none =>
      cases hh : (if anon = true then none else f.handle) with
      | some e =>
        refine stop (s' := { s with last := e }) ht (List.prefix_refl _) (fun _ => rfl) (.inr (.inr (.inl ?_)))
        cases anon with
        | true => cases hh
        | false => exact ⟨rfl, hh⟩
      | none =>
        have h := opened_spec (wr := wr) ht hop ho hl hd ha rfl
        generalize (if len = 0 then sub64 s.data.length off else len) = n at h
        have e : halves (add64 off n) = add64 off n := halves_eq (by unfold add64; exact Nat.mod_lt _ (by decide))
        have e' := halves_eq ho
        show Ends f wr anon off len s (opened f wr anon fd (halves off) (halves (add64 off n)) n s)
        rw [e, e']
        exact h

/-- **C91 (remark).** A creation that fails because the offset is not a multiple of 64 kB has already made the file longer. -/
theorem failed_grows : ∃ (f : Fate) (s s' : Sys) (m : Obj), Texts f ∧ init f true false 2 3 s = .ok (-1, s', m) ∧
    s.data = [7, 7] ∧ s'.data = [7, 7, 0, 0, 0] :=
  ⟨⟨.ok 3, none, none, none, .ok 65536, id, id, fun _ => none⟩, ⟨[7, 7], 0⟩, ⟨[7, 7, 0, 0, 0], 1132⟩, blank,
    fun e t h => (by cases h), by decide +kernel, rfl, rfl⟩

/-! ## Example -/

/-- Everything succeeds. -/
def good : Fate := ⟨.ok 3, none, none, none, .ok 65536, id, id, fun e => some [UInt8.ofNat e, 0]⟩

example : Texts good := fun e t h => by
  cases h
  by_cases h0 : UInt8.ofNat e = 0
  · exact ⟨[], ⟨fun i hi => by simp at hi, by simp, by simp [h0]⟩⟩
  · exact ⟨[UInt8.ofNat e], CStr.self (s := [UInt8.ofNat e]) (by simpa using h0)⟩

/-- A file of ten bytes is mapped with 20 bytes: it is made longer. -/
example : ∃ m, init good true false 0 20 ⟨List.replicate 10 7, 0⟩ = .ok (0, ⟨List.replicate 10 7 ++ List.replicate 10 0, 0⟩, m) ∧ m.len = 20 :=
  ⟨⟨3, 0, 65536, 20, List.replicate 128 0⟩, by decide +kernel, rfl⟩

/-- It is not if it may only be read. -/
example : ∃ m, init good false false 0 20 ⟨List.replicate 10 7, 0⟩ = .ok (-1, ⟨List.replicate 10 7, 8⟩, m) ∧ m.err.take 2 = [8, 0] :=
  ⟨⟨-1, 0, 0, 0, 8 :: List.replicate 127 0⟩, by decide +kernel, rfl⟩

end Verif.Mmap.Win
