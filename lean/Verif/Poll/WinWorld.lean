import Verif.Poll.WinFill

/-! # A thread that polls, and others that make requests, on Windows -/

namespace Verif.Poll.Win

open Table (dataInner capacity)
open Spec (Req)

/-- Where the polling thread is: outside of `sc_sock_poll_wait`; in `WSAPoll`; after it returned `n`; before it takes the
lock again, `WSAPoll` having succeeded or not -/
inductive Phase where
  | idle
  | inPoll
  | got (n : Nat)
  | back (ok : Bool)
  deriving DecidableEq

/-- The poller, the polling thread, the bytes in the wakeup pipe, and the threads that have to write one -/
structure W where
  s : Sys
  ph : Phase
  bytes : Nat
  writers : Nat

/-- Changing members of the poller -/
def W.withP (w : W) (p : P) : W := { w with s := { w.s with p := p } }

/-- Requests that the theorems are about. Object 0 is the wakeup pipe and is nobody else's. While a thread polls, an object
that is not registered makes no request that leaves nothing to wait for. There is room for the entry. -/
structure Allowed (l : List Req) (w : W) (add : Bool) (i : Nat) (evs : Bits) : Prop where
  notPipe : i ≠ 0
  some : w.s.p.polling = true → (w.s.obj i).op = NONE → Spec.apply (Spec.after l) (asked add i evs) i ≠ Spec.nothing
  room : w.s.p.polling = false → add = true → (w.s.obj i).op = NONE → w.s.p.count < 524288

/-- One step, with the object a request or a transfer is for, and the request it grants. `G i d`: data `d` may be given for object `i`. `l`: requests granted before.

The system: `WSAPoll` returns the number of entries for which it found something; there is input for the wakeup pipe exactly
if a byte is in it; a failed `WSAPoll` may leave anything in the array. Left out, because the theorems do not hold for them:
a failed `WSAPoll` while requests are pending, unless it fails because of a socket that was closed; a failed write to the
wakeup pipe. -/
inductive Step (e : Env) (G : Nat → Nat → Prop) (l : List Req) : W → Option Nat → Option Req → W → Prop
  | add {w i evs d rc wake s} : Allowed l w true i evs → G i d → add e evs d i w.s = .ok (rc, wake, s) →
    Step e G l w (some i) (if rc = 0 then some (.add i evs.mask) else none) { w with s := s, writers := w.writers + wake.toNat }
  | del {w i evs d rc wake s} : Allowed l w false i evs → G i d → del e evs d i w.s = .ok (rc, wake, s) →
    Step e G l w (some i) (if rc = 0 then some (.del i evs.mask) else none) { w with s := s, writers := w.writers + wake.toNat }
  | write {w k} : w.writers = k + 1 → Step e G l w none none { w with writers := k, bytes := w.bytes + 1 }
  | rearm {w i b p} : (b = READ ∨ b = WRITE) → rearm b (w.s.obj i) w.s.p = .ok p → Step e G l w (some i) none (w.withP p)
  | enter {w} : w.ph = .idle → w.s.p.remaining ≤ 0 → Step e G l w none none { w.withP { w.s.p with polling := true } with ph := .inPoll }
  | more {w res p} : w.ph = .idle → 0 < w.s.p.remaining → fill w.s.p = .ok (res, p) → Step e G l w none none (w.withP p)
  | ret {w revs n p} : w.ph = .inPoll → polled revs w.s.p = .ok p → n = (List.range' 0 p.cap).countP (nz p) →
    ((revs 0).inp = true ↔ 0 < w.bytes) → Step e G l w none none { w.withP p with ph := .got n }
  | fail {w revs p} : w.ph = .inPoll → polled revs w.s.p = .ok p → Step e G l w none none { w.withP p with ph := .back false }
  | quiet {w} : w.ph = .got 0 → Step e G l w none none { w with ph := .back true }
  | drain {w n evs p} : w.ph = .got (n + 1) → eventInner 0 { w.s.p with remaining := ((n + 1 : Nat) : Int) } = .ok (evs, p) →
    Step e G l w none none { w.withP p with ph := .back true, bytes := if evs = READ then w.bytes - 16 else w.bytes }
  | finish {w ok rc res s} : w.ph = .back ok → (ok = false → w.s.p.ops ≠ []) → w.s.p.count + w.s.p.ops.length ≤ 524288 →
    finish e w.s = .ok (rc, res, s) → Step e G l w none none { w with s := s, ph := .idle }
  | error {w} : w.ph = .back false → w.s.p.ops = [] → Step e G l w none none { w.withP { w.s.p with polling := false } with ph := .idle }

/-- Histories, with the requests that were granted -/
inductive Runs (e : Env) (G : Nat → Nat → Prop) (w₀ : W) (l₀ : List Req) : List Req → W → Prop
  | refl : Runs e G w₀ l₀ l₀ w₀
  | step {l w o r w'} : Runs e G w₀ l₀ l w → Step e G l w o r w' → Runs e G w₀ l₀ (l ++ r.toList) w'

/-- The invariant -/
structure WInv (fd₀ : Nat → Int) (G : Nat → Nat → Prop) (l : List Req) (w : W) : Prop where
  inv : Inv fd₀ G (Spec.after l) w.s.p w.s.obj w.s.p.ops 0
  idle : w.s.p.polling = false → w.s.p.ops = []
  phase : w.ph = .idle ↔ w.s.p.polling = false
  rem : 0 ≤ w.s.p.remaining
  off : w.s.p.offset ≤ w.s.p.cap
  busy : w.ph = .idle → 0 < w.s.p.remaining → Busy w.s.p w.s.p.offset w.s.p.remaining ∧ 1 ≤ w.s.p.offset
  zero : w.ph = .inPoll ∨ w.ph = .back false ∨ (∃ n, w.ph = .got n) → w.s.p.remaining = 0
  got : ∀ n, w.ph = .got n → Busy w.s.p 0 (n : Int)
  back : w.ph = .back true → Busy w.s.p 1 w.s.p.remaining
  pipe : (w.s.obj 0).pd = some (dataInner 0) ∧ (w.s.obj 0).op = READ ∧ (w.s.obj 0).opIndex = none
  wake : w.ph = .inPoll → w.s.p.ops ≠ [] → 0 < w.bytes + w.writers
  ready : ∀ n, w.ph = .got n → ∀ s c r, entry w.s.p 0 = some (s, c) → s.rev = some r → r.inp = true → 0 < w.bytes

theorem WInv.wf {fd₀ G l w} (h : WInv fd₀ G l w) : ∃ ev k, Wf w.s.p ev k := h.inv.wf

theorem nz_calm {p p' : P} (h : Calm p p') (i : Nat) (hn : nz p' i = true) : nz p i = true := by
  unfold nz at hn ⊢
  cases he : entry p' i with
  | none => rw [he] at hn; cases hn
  | some q =>
    obtain ⟨s, c⟩ := q
    rw [he] at hn
    simp only [ne_eq, decide_eq_true_eq] at hn
    obtain ⟨s', c', h1, h2, -⟩ := h i s c he hn
    rw [h1]
    simpa [h2] using hn

theorem cap_pos {p : P} (h : ∃ ev k, Wf p ev k) : 16 ≤ p.cap := by
  obtain ⟨ev, k, hw⟩ := h
  rw [hw.cap]
  unfold capacity
  have : 1 ≤ 2 ^ k := Nat.one_le_two_pow
  omega

theorem Touches.cap_le {p : P} {e : Env} {evs : Bits} {d : Nat} {f f' : Fdt} {p' : P} {rc : Int} {ev : List Slot} {k : Nat} (he : ∀ n, e.alloc n = true)
    (hw : Wf p ev k) (hf : Held p f) (hroom : f.op = NONE → p.count < 524288) (h : addNow e evs d f p = .ok (rc, f', p')) : p.cap ≤ p'.cap := by
  obtain ⟨f2, p2, _, _, h1, -, -, -, -, -, -, -, h2, -⟩ := addNow_ok he hw hf hroom evs d
  rw [h] at h1
  cases h1
  exact h2

theorem after_append (l : List Req) (r : Req) : Spec.after (l ++ [r]) = Spec.apply (Spec.after l) r := by
  unfold Spec.after
  rw [List.foldl_append]
  rfl

/-- A request, at once or submitted -/
theorem request_ok {e : Env} (he : ∀ n, e.alloc n = true) {fd₀ G l w} (h : WInv fd₀ G l w) (b : Bool) {i : Nat} {evs : Bits} {d : Nat}
    (ha : Allowed l w b i evs) (hg : G i d) :
    ∃ rc wake s, (if b then add e evs d i w.s else del e evs d i w.s) = .ok (rc, wake, s) ∧ (rc = 0 ∨ rc = -1) ∧
      WInv fd₀ G (l ++ (if rc = 0 then some (asked b i evs) else none).toList) { w with s := s, writers := w.writers + wake.toNat } ∧
      (∀ j, j ≠ i → s.obj j = w.s.obj j) ∧ Kept w.s.obj (fun j => j ≠ i) w.s.p s.p := by
  have hmain : ∀ rc : Int, Spec.after (l ++ (if rc = 0 then some (asked b i evs) else none).toList) =
      if rc = 0 then Spec.apply (Spec.after l) (asked b i evs) else Spec.after l := by
    intro rc
    by_cases hr : rc = 0
    · rw [if_pos hr, if_pos hr]; exact after_append l _
    · rw [if_neg hr, if_neg hr]; simp
  cases hp : w.s.p.polling with
  | true =>
    have hsub : (if b then add e evs d i w.s else del e evs d i w.s) = submit e b evs d i w.s := by
      unfold add del
      rw [if_pos hp, if_pos hp]
      cases b <;> rfl
    rw [hsub]
    obtain ⟨rc, wake, s, h1, h2, h3, h4, h5, h6, h7, h8, h9, h10, h11, h12, h13⟩ := submit_ok e h.inv b evs hg (ha.some hp)
    have hsub : ∀ j, j ≠ i → s.obj j = w.s.obj j := by
      intro j hj
      have h1 := h1
      unfold submit at h1
      simp only at h1
      revert h1
      split
      · intro hh; cases hh; rfl
      · intro hh
        rename_i index p1 _ _
        cases hrd : rd p1.ops index with
        | ub => rw [hrd] at hh; cases hh
        | ok o =>
          rw [hrd] at hh
          simp only [Res.ok_bind] at hh
          split at hh
          · revert hh
            generalize wr _ _ _ = x
            cases x with
            | ub => intro hh; cases hh
            | ok ops => intro hh; cases hh; simp [Sys.set, hj]
          · revert hh
            generalize wr _ _ _ = x
            cases x with
            | ub => intro hh; cases hh
            | ok ops => intro hh; cases hh; simp [Sys.set, hj]
    refine ⟨rc, wake, s, h1, h2, ?_, hsub, fun j k q _ _ hq => by rw [entry_congr h6 h8]; exact hq⟩
    have hen : ∀ j, entry s.p j = entry w.s.p j := entry_congr h6 h8
    have hbusy : ∀ lo m, Busy w.s.p lo m → Busy s.p lo m := fun lo m hb => hb.mono (fun j _ hn => by rw [nz_congr (hen j)] at hn; exact hn)
    have hni : w.ph ≠ .idle := fun hc => by have := h.phase.1 hc; rw [hp] at this; cases this
    refine ⟨by rw [hmain]; exact h3, ?_, ?_, by rw [h10]; exact h.rem, by rw [h11, h7]; exact h.off, fun hc => absurd hc hni, ?_, ?_, ?_, ?_, ?_, ?_⟩
    · intro hc; simp only at hc; rw [h5, hp] at hc; cases hc
    · simp only; rw [h5]; exact h.phase
    · intro hc; simp only; rw [h10]; exact h.zero hc
    · intro n hc; exact hbusy _ _ (h.got n hc)
    · intro hc; simp only; rw [h10]; exact hbusy _ _ (h.back hc)
    · have : s.obj 0 = w.s.obj 0 := hsub 0 (Ne.symm ha.notPipe)
      simp only
      rw [this]
      exact h.pipe
    · intro hc hne
      simp only at hne ⊢
      by_cases hold : w.s.p.ops = []
      · rw [h4.2 ⟨hold, hne⟩]; show 0 < w.bytes + (w.writers + 1); omega
      · have := h.wake hc hold; omega
    · intro n hc s' c r g1
      simp only at g1
      rw [hen] at g1
      exact h.ready n hc s' c r g1
  | false =>
    have hops := h.idle hp
    have hph : w.ph = .idle := h.phase.2 hp
    have hnone : (w.s.obj i).opIndex = none := by
      cases hx : (w.s.obj i).opIndex with
      | none => rfl
      | some m =>
        obtain ⟨k, o, -, g, -⟩ := h.inv.index i m hx
        rw [hops] at g
        simp at g
    obtain ⟨ev, kk, hwf⟩ := h.inv.wf
    -- in both cases
    have fin : ∀ (f : Fdt) (p : P), Same w.s.p p → Calm w.s.p p → w.s.p.cap ≤ p.cap →
        Inv fd₀ G (Spec.apply (Spec.after l) (asked b i evs)) p (w.s.set i f p).obj w.s.p.ops 0 →
        WInv fd₀ G (l ++ [asked b i evs]) { w with s := w.s.set i f p, writers := w.writers + 0 } := by
      intro f p sm ca hcap hi
      refine ⟨?_, ?_, ?_, ?_, ?_, ?_, ?_, ?_, ?_, ?_, ?_, ?_⟩
      · rw [after_append]; show Inv _ _ _ p _ p.ops 0; rw [sm.ops]; exact hi
      · intro _; show p.ops = []; rw [sm.ops]; exact hops
      · show w.ph = .idle ↔ p.polling = false; rw [sm.polling]; exact h.phase
      · show 0 ≤ p.remaining; rw [sm.remaining]; exact h.rem
      · show p.offset ≤ p.cap; rw [sm.offset]; exact Nat.le_trans h.off hcap
      · intro hc hr
        show Busy p p.offset p.remaining ∧ 1 ≤ p.offset
        rw [sm.offset, sm.remaining]
        have hr : 0 < p.remaining := hr
        rw [sm.remaining] at hr
        obtain ⟨b1, b2⟩ := h.busy hc hr
        exact ⟨b1.mono (fun j _ hn => nz_calm ca j hn), b2⟩
      · intro hc; simp only at hc; rw [hph] at hc; rcases hc with hc | hc | ⟨n, hc⟩ <;> cases hc
      · intro n hc; simp only at hc; rw [hph] at hc; cases hc
      · intro hc; simp only at hc; rw [hph] at hc; cases hc
      · have : (w.s.set i f p).obj 0 = w.s.obj 0 := by simp [Sys.set, Ne.symm ha.notPipe]
        simp only
        rw [this]
        exact h.pipe
      · intro hc; simp only at hc; rw [hph] at hc; cases hc
      · intro n hc; simp only at hc; rw [hph] at hc; cases hc
    have hM : ∀ v : Bits, v = (if b then dropEdge ((w.s.obj i).op ||| evs) else dropEdge ((w.s.obj i).op &&& ~~~evs)) →
        (fun j => if j = i then v.mask else Spec.after l j) = Spec.apply (Spec.after l) (asked b i evs) := by
      intro v hv
      funext j
      by_cases hj : j = i
      · subst hj
        rw [if_pos rfl, hv]
        exact (asked_at b j evs (w.s.obj j).op (Spec.after l) (h.inv.mask j hnone)).symm
      · rw [if_neg hj, asked_other b i evs _ j hj]
    cases b with
    | true =>
      obtain ⟨f', p', g1, g2, g3, g4, gk, g5, g6, g7⟩ := h.inv.addNow he hnone (ha.room hp rfl) evs hg
      refine ⟨0, false, w.s.set i f' p', ?_, .inl rfl, ?_, fun j hj => by simp [Sys.set, hj], gk⟩
      · unfold add
        rw [if_pos rfl, if_neg (by rw [hp]; decide), g1]
        rfl
      · refine fin f' p' g2 g4 (Touches.cap_le he hwf (h.inv.held i) (ha.room hp rfl) g1) ?_
        have := g7 (w.s.set i f' p').obj (by simp [Sys.set]) (by intro j hj; simp [Sys.set, hj])
        rw [hM (dropEdge ((w.s.obj i).op ||| evs)) rfl] at this
        exact this
    | false =>
      obtain ⟨f', p', g1, g2, g3, g4, gk, g5, g6, g7⟩ := h.inv.delNow hnone evs hg
      refine ⟨0, false, w.s.set i f' p', ?_, .inl rfl, ?_, fun j hj => by simp [Sys.set, hj], gk⟩
      · unfold del
        rw [if_neg (by decide), if_neg (by rw [hp]; decide), g1]
        rfl
      · refine fin f' p' g2 g4 ?_ ?_
        · obtain ⟨f2, p2, _, k1, -, -, -, -, -, -, -, k2, -⟩ := delNow_ok hwf (h.inv.held i) evs d
          rw [g1] at k1
          cases k1
          omega
        · have := g7 (w.s.set i f' p').obj (by simp [Sys.set]) (by intro j hj; simp [Sys.set, hj])
          rw [hM (dropEdge ((w.s.obj i).op &&& ~~~evs)) rfl] at this
          exact this

/-- What the end of a wait tells: the table `p₁` after the pending requests, and the entry `stop` it went up to -/
structure Finished (fd₀ : Nat → Int) (G : Nat → Nat → Prop) (l : List Req) (w : W) (ok : Bool) (res : List (Bits × Nat)) (s : Sys) (p₁ : P) (stop : Nat) : Prop where
  inv : Inv fd₀ G (Spec.after l) p₁ s.obj [] 0
  calm : Calm w.s.p p₁
  kept : Kept w.s.obj (fun i => (w.s.obj i).opIndex = none) w.s.p p₁
  same : ∀ i, (w.s.obj i).opIndex = none → s.obj i = w.s.obj i
  found : ok = true → Filled p₁ 1 1024 res s.p stop
  nothing : ok = false → res = []
  quiet : ok = false → ∀ i s' c, entry p₁ i = some (s', c) → ∃ s'' c', entry s.p i = some (s'', c') ∧ c.edge &&& ~~~c'.edge = 0

/-- The end of a wait -/
theorem finish_ok {e : Env} (he : ∀ n, e.alloc n = true) {fd₀ G l w} (h : WInv fd₀ G l w) {ok : Bool} (hph : w.ph = .back ok)
    (hroom : w.s.p.count + w.s.p.ops.length ≤ 524288) :
    ∃ res s, finish e w.s = .ok ((res.length : Int), res, s) ∧ WInv fd₀ G l { w with s := s, ph := .idle } ∧
      ∃ p₁ stop, Finished fd₀ G l w ok res s p₁ stop := by
  have i0 : Inv fd₀ G (Spec.after l) ({ w.s.p with polling := false } : P) w.s.obj w.s.p.ops 0 := h.inv.congr rfl rfl rfl rfl
  obtain ⟨s1, g1, g2, g3, g4, g5, g6, g7⟩ := applyOps_ok he w.s.p.ops (s := { w.s with p := { w.s.p with polling := false } }) i0 hroom
  have hcap := cap_pos g2.wf
  have i1 : Inv fd₀ G (Spec.after l) ({ s1.p with ops := [], offset := 1 } : P) s1.obj [] 0 := (g2.nil 0).congr rfl rfl rfl rfl
  have hrem : s1.p.remaining = w.s.p.remaining := g3.remaining
  have hpol : s1.p.polling = false := g3.polling
  have hpipe : s1.obj 0 = w.s.obj 0 := g6 0 h.pipe.2.2
  unfold finish
  rw [g1]
  simp only [Res.ok_bind, if_true]
  have fin : ∀ (res : List (Bits × Nat)) (p : P), Soft { s1.p with ops := [], offset := 1 } p → 0 ≤ p.remaining →
      (0 < p.remaining → Busy p p.offset p.remaining ∧ 1 ≤ p.offset) → p.offset ≤ p.cap →
      WInv fd₀ G l { w with s := { s1 with p := p }, ph := .idle } := by
    intro res p sf hr hb ho
    have hpo : p.polling = false := sf.polling.trans hpol
    have hops : p.ops = [] := sf.ops
    refine ⟨?_, fun _ => hops, ⟨fun _ => hpo, fun _ => rfl⟩, hr, ho, fun _ => hb, ?_, ?_, ?_, ?_, ?_, ?_⟩
    · show Inv _ _ _ p s1.obj p.ops 0; rw [hops]; exact i1.soft sf
    · rintro (hc | hc | ⟨n, hc⟩) <;> cases hc
    · intro n hc; cases hc
    · intro hc; cases hc
    · show (s1.obj 0).pd = _ ∧ _; rw [hpipe]; exact h.pipe
    · intro hc; cases hc
    · intro n hc; cases hc
  cases ok with
  | false =>
    have hz := h.zero (.inr (.inl hph))
    rw [fill_zero (by show s1.p.remaining ≤ 0; rw [hrem, hz]; omega)]
    refine ⟨[], _, rfl, ?_, _, 0, i1, g5, g7, g6, (fun hc => by cases hc), fun _ => rfl,
      fun _ i s' c hq => ⟨s', c, hq, (by decide : ∀ x : Bits, x &&& ~~~x = 0) _⟩⟩
    refine fin [] { s1.p with ops := [], offset := 1, remaining := 0 } (.of_eq rfl rfl rfl rfl rfl rfl rfl) ?_ ?_ ?_
    · exact Int.le_refl 0
    · intro hc; exact absurd hc (by show ¬ (0 : Int) < 0; decide)
    · show 1 ≤ s1.p.cap; omega
  | true =>
    have hb := h.back hph
    obtain ⟨out, p', stop, k1, k2⟩ := fill_ok (p := { s1.p with ops := [], offset := 1 }) i1.wf (by show 1 ≤ s1.p.cap; omega)
      (by show 0 ≤ s1.p.remaining; rw [hrem]; exact h.rem)
      (by
        show Busy _ 1 s1.p.remaining
        rw [hrem]
        refine hb.mono (fun j _ hn => ?_)
        exact nz_calm (p := w.s.p) g5 j hn)
    rw [k1]
    refine ⟨out, _, rfl, fin out p' k2.soft ?_ ?_ ?_, _, stop, i1, g5, g7, g6, fun _ => k2, (fun hc => by cases hc), (fun hc => by cases hc)⟩
    · by_cases hl : out.length < 1024
      · rw [(k2.all hl).2.1]; exact Int.le_refl 0
      · exact (k2.rest (by have := k2.len; omega)).2.2
    · intro hr
      by_cases hl : out.length < 1024
      · rw [(k2.all hl).2.1] at hr; exact absurd hr (by decide)
      · have hle : 1 ≤ stop := k2.le
        obtain ⟨r1, r2, -⟩ := k2.rest (by have := k2.len; omega)
        rw [r1]
        exact ⟨r2, hle⟩
    · rw [k2.soft.cap]
      by_cases hl : out.length < 1024
      · rw [(k2.all hl).2.2]; show 1 ≤ s1.p.cap; omega
      · rw [(k2.rest (by have := k2.len; omega)).1]; exact k2.cap

/-- The invariant holds in the course of every history. -/
theorem step_ok {e : Env} (he : ∀ n, e.alloc n = true) {fd₀ G l w o r w'} (h : WInv fd₀ G l w) (hs : Step e G l w o r w') :
    WInv fd₀ G (l ++ r.toList) w' := by
  cases hs with
  | @add i evs d rc wake s ha hg hr =>
    obtain ⟨rc', wake', s', g1, -, g3, -⟩ := request_ok he h true ha hg
    rw [if_pos rfl, hr] at g1
    cases g1
    exact g3
  | @del i evs d rc wake s ha hg hr =>
    obtain ⟨rc', wake', s', g1, -, g3, -⟩ := request_ok he h false ha hg
    rw [if_neg (by decide), hr] at g1
    cases g1
    exact g3
  | @write k hk =>
    simp only [Option.toList_none, List.append_nil]
    refine ⟨h.inv, h.idle, h.phase, h.rem, h.off, h.busy, h.zero, h.got, h.back, h.pipe, ?_, ?_⟩
    · intro _ _; show 0 < w.bytes + 1 + k; omega
    · intro n _ s c r _ _ _; show 0 < w.bytes + 1; omega
  | @rearm i b p hb hr =>
    simp only [Option.toList_none, List.append_nil]
    obtain ⟨ev, k, hw⟩ := h.inv.wf
    obtain ⟨p', g1, sf, g3, g4, g5, -⟩ := rearm_ok hw (h.inv.held i) hb
    rw [hr] at g1
    cases g1
    have hnz : ∀ j, nz p j = true → nz w.s.p j = true := by
      intro j hn
      unfold nz at hn ⊢
      cases hx : entry p j with
      | none => rw [hx] at hn; cases hn
      | some q =>
        obtain ⟨q', k1, k2⟩ := g5 j q hx
        rw [hx] at hn
        rw [k1]
        simp only at hn ⊢
        rw [k2]
        exact hn
    refine ⟨?_, ?_, ?_, ?_, ?_, ?_, ?_, ?_, ?_, h.pipe, ?_, ?_⟩
    · show Inv _ _ _ p _ p.ops 0; rw [sf.ops]; exact h.inv.soft sf
    · show p.polling = false → p.ops = []; rw [sf.polling, sf.ops]; exact h.idle
    · show w.ph = .idle ↔ p.polling = false; rw [sf.polling]; exact h.phase
    · show 0 ≤ p.remaining; rw [g3]; exact h.rem
    · show p.offset ≤ p.cap; rw [g4, sf.cap]; exact h.off
    · intro hc hr
      have hr : 0 < p.remaining := hr
      show Busy p p.offset p.remaining ∧ 1 ≤ p.offset
      rw [g3] at hr ⊢
      rw [g4]
      obtain ⟨b1, b2⟩ := h.busy hc hr
      exact ⟨b1.mono (fun j _ => hnz j), b2⟩
    · intro hc; show p.remaining = 0; rw [g3]; exact h.zero hc
    · intro n hc; exact (h.got n hc).mono (fun j _ => hnz j)
    · intro hc; show Busy p 1 p.remaining; rw [g3]; exact (h.back hc).mono (fun j _ => hnz j)
    · intro hc hne; exact h.wake hc (by rw [← sf.ops]; exact hne)
    · intro n hc s c r k1 k2 k3
      obtain ⟨⟨s', c'⟩, k4, k5⟩ := g5 0 _ k1
      simp only at k5
      subst k5
      exact h.ready n hc s' c' r k4 k2 k3
  | enter hp hr =>
    simp only [Option.toList_none, List.append_nil]
    have hz : w.s.p.remaining = 0 := by have := h.rem; omega
    have hno : w.s.p.ops = [] := h.idle (h.phase.1 hp)
    refine ⟨h.inv.congr rfl rfl rfl rfl, ?_, ?_, h.rem, h.off, ?_, fun _ => hz, ?_, ?_, h.pipe, ?_, ?_⟩
    · intro hc; cases hc
    · constructor <;> intro hc <;> cases hc
    · intro hc; cases hc
    · intro n hc; cases hc
    · intro hc; cases hc
    · intro _ hc; exact absurd hno hc
    · intro n hc; cases hc
  | @more res p hp hr hf =>
    simp only [Option.toList_none, List.append_nil]
    obtain ⟨b1, b2⟩ := h.busy hp hr
    obtain ⟨out, p', stop, k1, k2⟩ := fill_ok h.inv.wf h.off h.rem b1
    rw [hf] at k1
    cases k1
    have sf := k2.soft
    refine ⟨?_, ?_, ?_, ?_, ?_, ?_, ?_, ?_, ?_, h.pipe, ?_, ?_⟩
    · show Inv _ _ _ p _ p.ops 0; rw [sf.ops]; exact h.inv.soft sf
    · show p.polling = false → p.ops = []; rw [sf.polling, sf.ops]; exact h.idle
    · show w.ph = .idle ↔ p.polling = false; rw [sf.polling]; exact h.phase
    · show 0 ≤ p.remaining
      by_cases hl : res.length < 1024
      · rw [(k2.all hl).2.1]; exact Int.le_refl 0
      · exact (k2.rest (by have := k2.len; omega)).2.2
    · show p.offset ≤ p.cap
      rw [sf.cap]
      by_cases hl : res.length < 1024
      · rw [(k2.all hl).2.2]; exact h.off
      · rw [(k2.rest (by have := k2.len; omega)).1]; exact k2.cap
    · intro _ hr
      have hr : 0 < p.remaining := hr
      show Busy p p.offset p.remaining ∧ 1 ≤ p.offset
      by_cases hl : res.length < 1024
      · rw [(k2.all hl).2.1] at hr; exact absurd hr (by decide)
      · have hle := k2.le
        obtain ⟨r1, r2, -⟩ := k2.rest (by have := k2.len; omega)
        rw [r1]
        exact ⟨r2, by omega⟩
    · intro hc; change w.ph = _ ∨ w.ph = _ ∨ (∃ n, w.ph = _) at hc; rw [hp] at hc; rcases hc with hc | hc | ⟨n, hc⟩ <;> cases hc
    · intro n hc; change w.ph = _ at hc; rw [hp] at hc; cases hc
    · intro hc; change w.ph = _ at hc; rw [hp] at hc; cases hc
    · intro hc; change w.ph = _ at hc; rw [hp] at hc; cases hc
    · intro n hc; change w.ph = _ at hc; rw [hp] at hc; cases hc
  | @ret revs n p hp hf hn hlaw =>
    simp only [Option.toList_none, List.append_nil]
    obtain ⟨ev, k, hw⟩ := h.inv.wf
    obtain ⟨p', k1, sf, k3, k4, k5⟩ := polled_ok hw revs
    rw [hf] at k1
    cases k1
    have hz := h.zero (.inl hp)
    have hnp : p.polling = true := by
      rw [sf.polling]
      cases hx : w.s.p.polling with
      | true => rfl
      | false => have := h.phase.2 hx; rw [hp] at this; cases this
    refine ⟨?_, ?_, ?_, ?_, ?_, ?_, ?_, ?_, ?_, h.pipe, ?_, ?_⟩
    · show Inv _ _ _ p _ p.ops 0; rw [sf.ops]; exact h.inv.soft sf
    · show p.polling = false → _; rw [hnp]; intro hc; cases hc
    · show _ ↔ p.polling = false; rw [hnp]; constructor <;> intro hc <;> cases hc
    · show 0 ≤ p.remaining; rw [k3]; exact h.rem
    · show p.offset ≤ p.cap; rw [k4, sf.cap]; exact h.off
    · intro hc; cases hc
    · intro _; show p.remaining = 0; rw [k3]; exact hz
    · intro m hm
      cases hm
      show Busy p 0 _
      intro N
      rw [hn]
      have hle : (List.range' 0 N).countP (nz p) ≤ (List.range' 0 p.cap).countP (nz p) := by
        by_cases hN : N ≤ p.cap
        · have : List.range' 0 p.cap = List.range' 0 N ++ List.range' N (p.cap - N) := by
            have := List.range'_append_1 (s := 0) (m := N) (n := p.cap - N)
            rw [show N + (p.cap - N) = p.cap from by omega, Nat.zero_add] at this
            exact this.symm
          rw [this, List.countP_append]
          omega
        · have : List.range' 0 N = List.range' 0 p.cap ++ List.range' p.cap (N - p.cap) := by
            have := List.range'_append_1 (s := 0) (m := p.cap) (n := N - p.cap)
            rw [show p.cap + (N - p.cap) = N from by omega, Nat.zero_add] at this
            exact this.symm
          rw [this, List.countP_append]
          have hzero : (List.range' p.cap (N - p.cap)).countP (nz p) = 0 := by
            rw [List.countP_eq_zero]
            intro x hx
            rw [List.mem_range'_1] at hx
            unfold nz
            obtain ⟨ev', k', hw'⟩ := sf.wf ⟨ev, k, hw⟩
            cases hen : entry p x with
            | none => simp
            | some q => have := hw'.lt hen; omega
          omega
      omega
    · intro hc; cases hc
    · intro hc; cases hc
    · intro m hm s c r g1 g2 g3
      have ho := (h.inv.held 0).owns (by rw [h.pipe.2.1]; decide)
      obtain ⟨i0, s0, c0, ho⟩ := ho
      have hi0 : i0 = 0 := by
        have := ho.pd
        rw [h.pipe.1] at this
        obtain ⟨ev', k', hw'⟩ := h.inv.wf
        exact (dataInner_inj hw'.toShape (by have := cap_pos h.inv.wf; omega) (ho.lt hw') (Option.some.inj this)).symm
      subst hi0
      have := k5 0 s0 c0 ho.entry
      change entry p 0 = _ at g1
      rw [this] at g1
      cases g1
      cases g2
      exact hlaw.1 g3
  | @fail revs p hp hf =>
    simp only [Option.toList_none, List.append_nil]
    obtain ⟨ev, k, hw⟩ := h.inv.wf
    obtain ⟨p', k1, sf, k3, k4, k5⟩ := polled_ok hw revs
    rw [hf] at k1
    cases k1
    have hz := h.zero (.inl hp)
    have hnp : p.polling = true := by
      rw [sf.polling]
      cases hx : w.s.p.polling with
      | true => rfl
      | false => have := h.phase.2 hx; rw [hp] at this; cases this
    refine ⟨?_, ?_, ?_, ?_, ?_, ?_, ?_, ?_, ?_, h.pipe, ?_, ?_⟩
    · show Inv _ _ _ p _ p.ops 0; rw [sf.ops]; exact h.inv.soft sf
    · show p.polling = false → _; rw [hnp]; intro hc; cases hc
    · show _ ↔ p.polling = false; rw [hnp]; constructor <;> intro hc <;> cases hc
    · show 0 ≤ p.remaining; rw [k3]; exact h.rem
    · show p.offset ≤ p.cap; rw [k4, sf.cap]; exact h.off
    · intro hc; cases hc
    · intro _; show p.remaining = 0; rw [k3]; exact hz
    · intro m hm; cases hm
    · intro hc; cases hc
    · intro hc; cases hc
    · intro m hm; cases hm
  | quiet hp =>
    simp only [Option.toList_none, List.append_nil]
    have hz := h.zero (.inr (.inr ⟨0, hp⟩))
    have hnp : w.s.p.polling ≠ false := fun hx => by have := h.phase.2 hx; rw [hp] at this; cases this
    refine ⟨h.inv, h.idle, ⟨(by intro hc; cases hc), fun hc => absurd hc hnp⟩, h.rem, h.off, ?_, ?_, ?_, ?_, h.pipe, ?_, ?_⟩
    · intro hc; cases hc
    · rintro (hc | hc | ⟨n, hc⟩) <;> cases hc
    · intro m hm; cases hm
    · intro _
      show Busy w.s.p 1 w.s.p.remaining
      rw [hz]
      have := (h.got 0 hp)
      have hnz := this.none (j := 0) (Nat.le_refl _)
      have := this.next
      rw [hnz] at this
      exact this
    · intro hc; cases hc
    · intro m hm; cases hm
  | @drain n evs p hp hf =>
    simp only [Option.toList_none, List.append_nil]
    obtain ⟨ev, k, hw⟩ := h.inv.wf
    have hw' : Wf { w.s.p with remaining := ((n + 1 : Nat) : Int) } ev k := hw.congr rfl rfl rfl rfl
    have hb : Busy { w.s.p with remaining := ((n + 1 : Nat) : Int) } 0 ((n + 1 : Nat) : Int) := (h.got _ hp).mono (fun _ _ hn => hn)
    have hnp : w.s.p.polling = true := by
      cases hx : w.s.p.polling with
      | true => rfl
      | false => have := h.phase.2 hx; rw [hp] at this; cases this
    have sf0 : Soft w.s.p { w.s.p with remaining := ((n + 1 : Nat) : Int) } := .of_eq rfl rfl rfl rfl rfl rfl rfl
    have core : Soft { w.s.p with remaining := ((n + 1 : Nat) : Int) } p ∧ p.offset = w.s.p.offset ∧ 0 ≤ p.remaining ∧ Busy p 1 p.remaining := by
      rcases eventInner_ok hw' (i := 0) (by have := cap_pos h.inv.wf; show 0 < w.s.p.cap; omega) with
        ⟨e1, hz⟩ | ⟨s, c, r, p1, hen, hs, hz, e1, sf, en, ens, r1, o1⟩
      · rw [hf] at e1
        cases e1
        refine ⟨.refl _, rfl, by show (0 : Int) ≤ ((n + 1 : Nat) : Int); omega, ?_⟩
        have := hb.next
        split at this
        · intro N; exact Int.le_trans (this N) (by show ((n + 1 : Nat) : Int) - 1 ≤ ((n + 1 : Nat) : Int); omega)
        · exact this
      · rw [hf] at e1
        cases e1
        refine ⟨sf, o1, by rw [r1]; show (0 : Int) ≤ ((n + 1 : Nat) : Int) - 1; omega, ?_⟩
        have hnz : nz { w.s.p with remaining := ((n + 1 : Nat) : Int) } 0 = true := by
          unfold nz; rw [hen]; simp only; rw [hs]; simpa using hz
        have := hb.next
        rw [hnz, if_pos rfl] at this
        rw [r1]
        exact this.mono (fun j hj hn => by rw [nz_congr (ens j (by omega))] at hn; exact hn)
    obtain ⟨sf, ho, hr, hb1⟩ := core
    have sf' := sf0.trans sf
    refine ⟨?_, ?_, ?_, hr, ?_, ?_, ?_, ?_, fun _ => hb1, h.pipe, ?_, ?_⟩
    · show Inv _ _ _ p _ p.ops 0; rw [sf'.ops]; exact h.inv.soft sf'
    · show p.polling = false → _; rw [sf'.polling, hnp]; intro hc; cases hc
    · show _ ↔ p.polling = false; rw [sf'.polling, hnp]; constructor <;> intro hc <;> cases hc
    · show p.offset ≤ p.cap; rw [ho, sf'.cap]; exact h.off
    · intro hc; cases hc
    · rintro (hc | hc | ⟨n, hc⟩) <;> cases hc
    · intro m hm; cases hm
    · intro hc; cases hc
    · intro m hm; cases hm
  | @finish ok rc res s hp hne hroom hf =>
    simp only [Option.toList_none, List.append_nil]
    obtain ⟨res', s', k1, k2, -⟩ := finish_ok he h hp hroom
    rw [hf] at k1
    cases k1
    exact k2
  | error hp hno =>
    simp only [Option.toList_none, List.append_nil]
    have hz := h.zero (.inr (.inl hp))
    refine ⟨h.inv.congr rfl rfl rfl rfl, fun _ => hno, ⟨fun _ => rfl, fun _ => rfl⟩, h.rem, h.off, ?_, ?_, ?_, ?_, h.pipe, ?_, ?_⟩
    · intro _ hr; have hr : 0 < w.s.p.remaining := hr; omega
    · rintro (hc | hc | ⟨n, hc⟩) <;> cases hc
    · intro m hm; cases hm
    · intro hc; cases hc
    · intro hc; cases hc
    · intro m hm; cases hm

end Verif.Poll.Win
