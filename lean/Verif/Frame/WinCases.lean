import Verif.Frame.Win

/-! # Concrete cases: messages with a length in front on Windows -/

namespace Verif.Frame.Win

open Buf (B Val valid size)
open Sock.Io (EOF)
open Sock.WinTransfer (Env World)

/-- Three bytes at a time; some calls fail. The system has no texts. -/
def exEnv (bad : List (Nat × Int)) : Env := ⟨fun n => (bad.find? (·.1 = n)).map (·.2), fun _ => 2, ⟨fun _ => none⟩⟩

theorem exEnv_ok (bad : List (Nat × Int)) : (exEnv bad).texts.Ok := by
  intro er m h
  cases h

/-- Receivers that do, or do not, set `errno` to 0, in a thread whose other calls may leave any value there -/
def busy (clear : Bool) : Prog := ⟨clear, fun _ => True⟩

/-- A receiver in a thread that makes no other calls -/
def alone : Prog := ⟨false, fun _ => False⟩

/-- The sender's calls: the first is interrupted. -/
def exA : Env := exEnv [(0, 10004)]

/-- The receiver's calls: the second would have to wait. -/
def exB : Env := exEnv [(1, 10035)]

/-- A connection that has just been made, with a buffer of 16 bytes at each end; `errno` is that of the receiver. -/
def exC (errno : Int) : Conn where
  a := (Buf.init true 16).2
  sa := Sock.init false 2
  wa := ⟨⟨0, 0⟩, 0, [], []⟩
  moved := 0
  closed := false
  b := (Buf.init true 16).2
  sb := Sock.init false 2
  wb := ⟨{ errno := errno, last := 0 }, 0, [], []⟩

def orElse (c : Conn) (r : Res (Option (Int × Conn))) : Conn :=
  match r with
  | .ok (some (_, c)) => c
  | _ => c

/-- After the message was written -/
def exC1 (errno : Int) : Conn := { exC errno with a := orElseB (exC errno).a (putFrame (fun _ _ => none) (exC errno).a exVs) }
/-- Three bytes were sent, and the other three. -/
def exC2 (errno : Int) : Conn := orElse (exC1 errno) (sendSome exA 5 6 (exC1 errno))
def exC3 (errno : Int) : Conn := orElse (exC2 errno) (sendSome exA 5 3 (exC2 errno))
/-- Four of them have come over. -/
def exC4 : Conn := { exC3 0 with moved := 4, wb := { (exC3 0).wb with inp := (exC3 0).wb.inp ++ ((exC3 0).wa.sent.drop 0).take 4 } }
/-- Three of them were received. -/
def exC5 : Conn := orElse exC4 (recvSome exB 5 16 exC4)
/-- The others have come over, and the sender closes its end. -/
def exC6 : Conn := { exC5 with moved := 6, wb := { exC5.wb with inp := exC5.wb.inp ++ (exC5.wa.sent.drop 4).take 2 } }
def exC7 : Conn := { exC6 with closed := true }
/-- The next call would have to wait. -/
def exC8 : Conn := orElse exC7 (recvSome exB 5 13 exC7)
/-- The others were received. -/
def exC9 : Conn := orElse exC8 (recvSome exB 5 13 exC8)
/-- The end -/
def exC10 : Conn := orElse exC9 (recvSome exB 5 10 exC9)
/-- The message was taken out. -/
def exC11 : Conn := { exC10 with b := { exC10.b with rpos := 6 } }

theorem exC_fresh (errno : Int) : (exC errno).Fresh :=
  have h : Buf.InRange (Buf.init true 16).2 ∧ (Buf.init true 16).2.rpos = (Buf.init true 16).2.wpos :=
    ⟨⟨rfl, by decide, by decide, by decide⟩, rfl⟩
  ⟨h, h, rfl, rfl, ⟨rfl, rfl, rfl⟩, rfl⟩

theorem exVs_ok : ∀ v ∈ exVs, v.Ok := by simp [exVs, Val.Ok, Buf.Width.bytes]

-- a message of two values is sent in two pieces, comes over in two, is received in two, and is taken out after the end was seen
example : (exC 0).Fresh ∧ (exC 0).wb.err.errno ≠ EOF ∧ ¬ alone.left EOF ∧
    Run alone exA exB (exC 0) [.framed exVs, .other, .other, .other, .other, .other, .other, .other, .other, .eof, .got [9, 1]] exC11 ∧
    size exC11.a = 0 ∧ valid exC11.b = true ∧ next exC11.b = .ok (exC11.b, none) := by
  refine ⟨exC_fresh 0, by decide, id, ?_, by decide +kernel, by decide +kernel, by decide +kernel⟩
  have r1 : Run alone exA exB (exC 0) [.framed exVs] (exC1 0) :=
    Run.refl.step (Step.frame (al := fun _ _ => none) rfl exVs_ok (by decide +kernel) (by decide +kernel) (by decide +kernel))
  have r2 := r1.step (Step.send (c' := exC2 0) (fuel := 5) (len := 6) (rc := 3) rfl (by decide) (by decide) (by decide +kernel) (by decide +kernel))
  have r3 := r2.step (Step.send (c' := exC3 0) (fuel := 5) (len := 3) (rc := 3) rfl (by decide) (by decide) (by decide +kernel) (by decide +kernel))
  have r4 : Run alone exA exB (exC 0) _ exC4 := r3.step (Step.carry 4 (by decide +kernel))
  have r5 := r4.step (Step.recv (c' := exC5) (fuel := 5) (len := 16) (rc := 3) (by decide) (by decide) (by decide +kernel) (by decide +kernel)
    (by decide +kernel))
  have r6 : Run alone exA exB (exC 0) _ exC6 := r5.step (Step.carry 2 (by decide +kernel))
  have r7 : Run alone exA exB (exC 0) _ exC7 := r6.step Step.close
  have r8 := r7.step (Step.recv (c' := exC8) (fuel := 5) (len := 13) (rc := -1) (by decide) (by decide) (by decide +kernel) (by decide +kernel)
    (by decide +kernel))
  have r9 := r8.step (Step.recv (c' := exC9) (fuel := 5) (len := 13) (rc := 3) (by decide) (by decide) (by decide +kernel) (by decide +kernel)
    (by decide +kernel))
  have r10 := r9.step (Step.recv (c' := exC10) (fuel := 5) (len := 10) (rc := -1) (by decide) (by decide) (by decide +kernel) (by decide +kernel)
    (by decide +kernel))
  have r11 : Run alone exA exB (exC 0) _ exC11 := r10.step (Step.next (bs := [9, 1]) (by decide +kernel))
  rw [if_neg (by decide +kernel), if_neg (by decide +kernel), if_neg (by decide +kernel), if_pos (by decide +kernel)] at r11
  exact r11

/-- The receiver's only call fails because the connection was reset. -/
def exR : Env := exEnv [(0, 10054)]

/-- Another connection of the receiver's thread has ended. -/
def exC12 : Conn := { exC3 0 with wb := { (exC3 0).wb with err := { (exC3 0).wb.err with errno := EOF } } }
/-- After the call that fails, for a receiver that sets `errno` to 0 or does not -/
def exC13 (clear : Bool) : Conn := orElse exC12 (recvSome exR 5 16 (ready (busy clear) exC12))

theorem exRun (clear : Bool) : Run (busy clear) exA exR (exC 0) [.framed exVs, .other, .other, .other] exC12 := by
  have r1 : Run (busy clear) exA exR (exC 0) [.framed exVs] (exC1 0) :=
    Run.refl.step (Step.frame (al := fun _ _ => none) rfl exVs_ok (by decide +kernel) (by decide +kernel) (by decide +kernel))
  have r2 := r1.step (Step.send (c' := exC2 0) (fuel := 5) (len := 6) (rc := 3) rfl (by decide) (by decide) (by decide +kernel) (by decide +kernel))
  have r3 := r2.step (Step.send (c' := exC3 0) (fuel := 5) (len := 3) (rc := 3) rfl (by decide) (by decide) (by decide +kernel) (by decide +kernel))
  exact r3.step (Step.elsewhere (v := EOF) trivial)

/-- **C165 is violated** if another connection of the thread has ended: `errno` still has the number of the end when this connection is
reset, so the receiver believes that it has had every message, although one that was sent is missing and the sender has not closed its end. -/
theorem at_end_violated : ∃ c c' : Conn, ∃ es : List Event, c.Fresh ∧ c.wb.err.errno = 0 ∧ Run (busy false) exA exR c es c' ∧ .eof ∈ es ∧ size c'.a = 0 ∧
    valid c'.b = true ∧ next c'.b = .ok (c'.b, none) ∧ taken es = [] ∧ (written es).map bytes = [[9, 1]] ∧ c'.closed = false := by
  refine ⟨exC 0, exC13 false, [.framed exVs, .other, .other, .other, .eof], exC_fresh 0, rfl, ?_, by simp, by decide +kernel, by decide +kernel,
    by decide +kernel, rfl, by decide +kernel, by decide +kernel⟩
  have r := (exRun false).step (Step.recv (c' := exC13 false) (fuel := 5) (len := 16) (rc := -1) (by decide) (by decide) (by decide +kernel)
    (by decide +kernel) (by decide +kernel))
  rw [if_pos (by decide +kernel)] at r
  exact r

-- the receiver that sets errno to 0 does not take the reset for the end
example : Run (busy true) exA exR (exC 0) [.framed exVs, .other, .other, .other, .other] (exC13 true) ∧ (exC13 true).wb.err = { last := 10054, errno := 0 } := by
  refine ⟨?_, by decide +kernel⟩
  have r := (exRun true).step (Step.recv (c' := exC13 true) (fuel := 5) (len := 16) (rc := -1) (by decide) (by decide) (by decide +kernel)
    (by decide +kernel) (by decide +kernel))
  rw [if_neg (by decide +kernel)] at r
  exact r

end Verif.Frame.Win
