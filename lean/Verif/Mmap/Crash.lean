import Verif.Mmap.Range

/-!
# What a crash of the machine leaves of a memory map

The file on the disk lags behind the memory: the system may write back any page at any time, and does
so for the pages a successful `msync` reaches. On Windows `FlushViewOfFile` only starts to write.
-/

namespace Verif.Mmap.Spec

/-- What a user does with a map: stores a byte, or is told that a range was synced. -/
inductive Act where
  | write (i : Nat) (v : UInt8)
  | synced (off len : Nat)

/-- The contents of the map, and for each byte the values that a crash may leave -/
structure Known where
  mem : Nat → UInt8
  may : Nat → List UInt8

/-- At first the map is as the file. -/
def Known.start (f : Nat → UInt8) : Known := ⟨f, fun b => [f b]⟩

/-- A value that was stored may survive or not, until it is synced: then it is the only one. -/
def Known.act (k : Known) : Act → Known
  | .write i v => ⟨fun b => if b = i then v else k.mem b, fun b => if b = i then v :: k.may b else k.may b⟩
  | .synced off len => { k with may := fun b => if off ≤ b ∧ b < off + len then [k.mem b] else k.may b }

/-- After some acts -/
def Known.after (f : Nat → UInt8) (as : List Act) : Known := as.foldl Known.act (.start f)

end Verif.Mmap.Spec

namespace Verif.Mmap.Crash

open Spec (Reaches Act Known)

/-- The map as the process sees it and the file on the disk, both by the offset in the map -/
structure World where
  mem : Nat → UInt8
  disk : Nat → UInt8

/-- What happens to a map `m` on POSIX: memory-map/sc_mmap.c:316-327 for syncing; pages are of `2 ^ k`
bytes. A sync that fails tells nothing; what it writes back is some pages. -/
inductive Run (m : Obj) (k : Nat) (f : Nat → UInt8) : List Act → World → Prop
  | start : Run m k f [] ⟨f, f⟩
  | write {as w} (i : Nat) (v : UInt8) : Run m k f as w →
    Run m k f (as ++ [.write i v]) { w with mem := fun b => if b = i then v else w.mem b }
  | back {as w} (q : Nat) : Run m k f as w →
    Run m k f as { w with disk := fun b => if (m.ptr + b) / 2 ^ k = q then w.mem b else w.disk b }
  | sync {as w strerror os os' m' off len rg} {disk : Nat → UInt8} : Run m k f as w → off < 2 ^ 64 →
    msync strerror (.ok ()) os m off len = .ok (0, rg, os', m') →
    (∀ b, Reaches (2 ^ k) rg.addr rg.len (m.ptr + b) → disk b = w.mem b) →
    (∀ b, ¬ Reaches (2 ^ k) rg.addr rg.len (m.ptr + b) → disk b = w.disk b) →
    Run m k f (as ++ [.synced off len]) { w with disk := disk }

/-- The range does not begin inside a page, or ends so that this does not matter. -/
def Fits (p off len : Nat) : Prop := len = 0 ∨ (off / p * p + len - 1) / p = (off + len - 1) / p

theorem fits_aligned {p off len : Nat} (h : off % p = 0) : Fits p off len := by
  right
  rw [Nat.div_mul_cancel (Nat.dvd_of_mod_eq_zero h)]

theorem after_append (f : Nat → UInt8) (as : List Act) (a : Act) :
    Known.after f (as ++ [a]) = (Known.after f as).act a := by
  unfold Known.after
  rw [List.foldl_append]
  rfl

/-- **C114**, where it holds: if all ranges fit, then whenever the machine crashes each byte of the file is
one that it may be: what was synced last, or stored later. -/
theorem survives_partial {m : Obj} {k : Nat} {f : Nat → UInt8} {as : List Act} {w : World}
    (hk : m.pageSize = (2 ^ k : Nat)) (hk' : k ≤ 64) (hm : m.ptr % 2 ^ k = 0)
    (hf : ∀ off len, .synced off len ∈ as → Fits (2 ^ k) off len) (h : Run m k f as w) :
    w.mem = (Known.after f as).mem ∧ ∀ b, w.disk b ∈ (Known.after f as).may b := by
  suffices h' : w.mem = (Known.after f as).mem ∧ (∀ b, w.disk b ∈ (Known.after f as).may b) ∧
      ∀ b, w.mem b ∈ (Known.after f as).may b from ⟨h'.1, h'.2.1⟩
  induction h with
  | start => exact ⟨rfl, fun b => List.mem_singleton.2 rfl, fun b => List.mem_singleton.2 rfl⟩
  | @write as w i v _ ih =>
    obtain ⟨h1, h2, h3⟩ := ih fun off len h => hf off len (List.mem_append_left _ h)
    rw [after_append]
    refine ⟨?_, fun b => ?_, fun b => ?_⟩
    · simp only [Known.act, h1]
    · simp only [Known.act]
      split
      · exact List.mem_cons_of_mem _ (h2 b)
      · exact h2 b
    · simp only [Known.act]
      split
      · exact List.mem_cons_self
      · exact h3 b
  | @back as w q _ ih =>
    obtain ⟨h1, h2, h3⟩ := ih hf
    refine ⟨h1, fun b => ?_, h3⟩
    simp only
    split
    · exact h3 b
    · exact h2 b
  | @sync as w strerror os os' m' off len rg disk _ ho hr hd hd' ih =>
    obtain ⟨h1, h2, h3⟩ := ih fun off len h => hf off len (List.mem_append_left _ h)
    have hfit := hf off len (List.mem_append_right _ (List.mem_singleton.2 rfl))
    have hc := (msync_covers_iff hk hk' hm ho hr).2 hfit
    rw [after_append]
    refine ⟨h1, fun b => ?_, fun b => ?_⟩
    · simp only [Known.act]
      split
      · next hb =>
        rw [hd b (hc _ (by omega) (by omega)), h1]
        exact List.mem_singleton.2 rfl
      · by_cases hx : Reaches (2 ^ k) rg.addr rg.len (m.ptr + b)
        · rw [hd b hx]; exact h3 b
        · rw [hd' b hx]; exact h2 b
    · simp only [Known.act]
      split
      · rw [h1]; exact List.mem_singleton.2 rfl
      · exact h3 b

/-- **C114**: what was synced and not stored to afterwards is what is on the disk. -/
theorem synced_survives_partial {m : Obj} {k : Nat} {f : Nat → UInt8} {as : List Act} {w : World}
    (hk : m.pageSize = (2 ^ k : Nat)) (hk' : k ≤ 64) (hm : m.ptr % 2 ^ k = 0) {off len : Nat}
    (hf : ∀ o l, .synced o l ∈ as ++ [.synced off len] → Fits (2 ^ k) o l)
    (h : Run m k f (as ++ [.synced off len]) w) (b : Nat) (h1 : off ≤ b) (h2 : b < off + len) : w.disk b = w.mem b := by
  obtain ⟨k1, k2⟩ := survives_partial hk hk' hm hf h
  have := k2 b
  rw [k1]
  rw [after_append] at this ⊢
  simp only [Known.act, if_pos (And.intro h1 h2)] at this ⊢
  exact List.mem_singleton.1 this

/-- A map of two pages -/
def two : Obj := ⟨3, 4096, 8192, 8192, List.replicate 128 0⟩

/-- **C114 is violated**: of two bytes that are stored to and synced, the last of a page and the first of the next,
the second is lost. -/
theorem lost_violated : ∃ w : World, Run two 12 (fun _ => 0) [.write 4095 1, .write 4096 1, .synced 4095 2] w ∧
    w.disk 4095 = 1 ∧ w.disk 4096 = 0 := by
  refine ⟨⟨_, fun b => if b < 4096 then (if b = 4096 then 1 else if b = 4095 then 1 else 0) else 0⟩,
    .sync (strerror := fun _ => [0]) (os := ⟨[3], [⟨8192, 8192, 0⟩], [], 0⟩) (os' := ⟨[3], [⟨8192, 8192, 0⟩], [], 0⟩)
      (rg := ⟨8192, 2⟩) (m' := two)
      (.write 4096 1 (.write 4095 1 .start)) (by decide) rfl ?_ ?_, by decide, by decide⟩
  · rintro b ⟨x, h1, h2, h3⟩
    simp only [two] at h1 h2 h3 ⊢
    have : b < 4096 := by omega
    rw [if_pos this]
  · intro b hb
    by_cases h : b < 4096
    · exact absurd ⟨8192, by simp, by simp, by simp only [two]; omega⟩ hb
    · simp only
      rw [if_neg h]

/-! ## Windows -/

/-- `sc_mmap_errstr`, memory-map/sc_mmap.c:50-63: `text` is that of the last error, if the system has one. -/
def winErrstr (text : Option (List UInt8)) (m : Obj) : Res Obj :=
  match text with
  | none => .ok m
  | some t => do
    let err ← Ini.strncpy m.err t 0 (128 - 1)
    .ok { m with err := err }

/-- `sc_mmap_msync`, memory-map/sc_mmap.c:136-148, `sc_mmap_mlock`, 150-162, and `sc_mmap_munlock`, 164-176: the range
the system is called for. -/
def winRange (ok : Bool) (text : Option (List UInt8)) (m : Obj) (off len : Nat) : Res (Int × Range × Obj) := do
  let p := m.ptr + off
  if ok then .ok (0, ⟨p, len⟩, m)
  else do
    let m ← winErrstr text m
    .ok (-1, ⟨p, len⟩, m)

/-- **C69, on Windows**, and the same for locking: the system is called for exactly the range that is asked for. -/
theorem win_covers {ok : Bool} {text : Option (List UInt8)} {m m' : Obj} {off len page : Nat} {rc : Int} {rg : Range}
    (h : winRange ok text m off len = .ok (rc, rg, m')) :
    (∀ b, m.ptr + off ≤ b → b < m.ptr + off + len → Reaches page rg.addr rg.len b) ∧ (rc = 0 ↔ ok = true) := by
  unfold winRange at h
  cases ok with
  | true =>
    simp only [if_true] at h
    cases h
    exact ⟨fun b h1 h2 => ⟨b, h1, h2, rfl⟩, by simp⟩
  | false =>
    simp only [Bool.false_eq_true, if_false, Res.bind_eq_ok, Res.ok.injEq, Prod.mk.injEq] at h
    obtain ⟨_, -, rfl, rfl, -⟩ := h
    exact ⟨fun b h1 h2 => ⟨b, h1, h2, rfl⟩, by simp⟩

/-- **C92, on Windows**: a failed call leaves the text of its error, if there is one, cut to 127 bytes; the text is
a string in any case. -/
theorem win_text {text : Option (List UInt8)} (ht : ∀ t, text = some t → ∃ s, CStr t 0 s) {m : Obj} (he : ErrOk m) (off len : Nat) :
    ∃ m', winRange false text m off len = .ok (-1, ⟨m.ptr + off, len⟩, m') ∧ ErrOk m' ∧
      (∀ t s, text = some t → CStr t 0 s → CStr m'.err 0 (s.take 127)) ∧ (text = none → m' = m) := by
  unfold winRange winErrstr
  cases text with
  | none => exact ⟨m, rfl, he, by simp, fun _ => rfl⟩
  | some t =>
    obtain ⟨s, hs⟩ := ht t rfl
    obtain ⟨d, h1, h2, h3, h4⟩ := store hs he.1 he.2
    refine ⟨{ m with err := d }, ?_, ⟨h2, h3⟩, ?_, by simp⟩
    · simp only [Bool.false_eq_true, if_false, h1, Res.ok_bind]
    · intro t' s' h h'
      cases h
      rw [hs.unique h'] at h4
      exact h4

/-- What happens to a map on Windows: a sync that succeeds has started to write (documentation of `FlushViewOfFile`),
when the pages are written is up to the system. -/
inductive WinRun (m : Obj) (k : Nat) (f : Nat → UInt8) : List Act → World → Prop
  | start : WinRun m k f [] ⟨f, f⟩
  | write {as w} (i : Nat) (v : UInt8) : WinRun m k f as w →
    WinRun m k f (as ++ [.write i v]) { w with mem := fun b => if b = i then v else w.mem b }
  | back {as w} (q : Nat) : WinRun m k f as w →
    WinRun m k f as { w with disk := fun b => if (m.ptr + b) / 2 ^ k = q then w.mem b else w.disk b }
  | sync {as w off len rg m'} : WinRun m k f as w → winRange true none m off len = .ok (0, rg, m') →
    WinRun m k f (as ++ [.synced off len]) w

/-- **C114 is violated** on Windows: whatever byte is stored to and synced, a crash may leave what was there before. -/
theorem win_lost_violated (m : Obj) (k : Nat) (f : Nat → UInt8) {i off len : Nat} (h1 : off ≤ i) (h2 : i < off + len) {v : UInt8}
    (hv : v ≠ f i) : ∃ w, WinRun m k f [.write i v, .synced off len] w ∧ w.disk i ∉ (Known.after f [.write i v, .synced off len]).may i := by
  refine ⟨_, .sync (.write i v .start) rfl, ?_⟩
  simp only [Known.after, List.foldl_cons, List.foldl_nil, Known.act, Known.start, if_pos (And.intro h1 h2), if_pos]
  intro hc
  exact hv (List.mem_singleton.1 hc).symm

/-- On both systems the memory is as the user stored it. -/
theorem win_mem {m : Obj} {k : Nat} {f : Nat → UInt8} {as : List Act} {w : World} (h : WinRun m k f as w) :
    w.mem = (Known.after f as).mem := by
  induction h with
  | start => rfl
  | write i v _ ih => rw [after_append]; simp only [Known.act, ih]
  | back q _ ih => exact ih
  | sync _ _ ih => rw [after_append]; exact ih

/-- A page is stored to and synced: it is on the disk. -/
example : ∃ w : World, Run two 12 (fun _ => 0) ([.write 5 7] ++ [.synced 0 4096]) w ∧ w.disk 5 = 7 := by
  refine ⟨⟨_, fun b => if b < 4096 then (if b = 5 then 7 else 0) else 0⟩,
    .sync (strerror := fun _ => [0]) (os := ⟨[3], [⟨8192, 8192, 0⟩], [], 0⟩) (os' := ⟨[3], [⟨8192, 8192, 0⟩], [], 0⟩)
      (rg := ⟨8192, 4096⟩) (m' := two) (.write 5 7 .start) (by decide) rfl ?_ ?_, by decide⟩
  · rintro b ⟨x, h1, h2, h3⟩
    simp only [two] at h1 h2 h3 ⊢
    have : b < 4096 := by omega
    rw [if_pos this]
  · intro b hb
    by_cases h : b < 4096
    · exact absurd ⟨8192, by simp, by simp, by simp only [two]; omega⟩ hb
    · simp only
      rw [if_neg h]

end Verif.Mmap.Crash
