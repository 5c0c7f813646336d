import Verif.Poll.WinText
import Verif.Poll.WinProps

/-!
# Concrete cases of the error texts of pollers on Windows
-/

namespace Verif.Poll.WinText.Cases

open Poll.Win

/-- The bytes of a text -/
def bytes (t : String) : List UInt8 := t.toList.map fun c => UInt8.ofNat c.toNat

/-- There is memory, or there is none. -/
def env (mem : Bool) : Poll.Win.Env := ⟨fun _ => mem, fun _ => mem⟩

/-- A text of an earlier failure -/
def old : List UInt8 := bytes "earlier" ++ List.replicate 121 0

/-- A poller with its wakeup pipe, and sockets 7, 8, ... -/
def sys : Sys := ⟨first 5, fun i => ⟨7 + i, NONE, none, none⟩⟩

/-- Adding the first `k` sockets -/
def adds : Nat → Sys → Res Sys
  | 0, s => .ok s
  | k + 1, s => do
    let s ← adds k s
    let (_, s, _) ← addT (env true) none READ 0 k s old
    .ok s

/-- What a call returned, and the text after it -/
def seen (r : Res (Int × Sys × List UInt8)) : Option (Int × List UInt8) :=
  match r with
  | .ok (rc, _, err) => match cstr err 0 with
    | .ok t => some (rc, t)
    | _ => none
  | _ => none

/-- The fifteenth socket still fits and the text stays; the sixteenth needs memory, and there is none. -/
example : seen (do let s ← adds 14 sys; addT (env false) none READ 0 14 s old) = some (0, bytes "earlier") := by decide +kernel
example : seen (do let s ← adds 15 sys; addT (env false) none READ 0 15 s old) = some (-1, bytes "Out of memory.") := by decide +kernel
example : seen (do let s ← adds 15 sys; addT (env true) none READ 0 15 s old) = some (0, bytes "earlier") := by decide +kernel

/-- A thread polls. -/
def busy : Sys := { sys with p := { sys.p with polling := true } }

/-- The wakeup pipe after it could not be written -/
def full : Sock.Io.Pipe := ⟨5, 0, 5, 6, bytes "pipe send() : err(10035) " ++ List.replicate 103 0⟩

theorem full_holds : Sock.PipeText.Holds full (bytes "pipe send() : err(10035) ") := by
  refine ⟨by decide +kernel, ?_, by decide +kernel, by decide +kernel⟩
  have h : ∀ i, i < 25 → full.err[0 + i]? = (bytes "pipe send() : err(10035) ")[i]? := by decide +kernel
  intro i hi
  have h25 : i < 25 := Nat.lt_of_lt_of_le hi (by decide +kernel)
  rw [h i h25, List.getElem?_eq_getElem (Nat.lt_of_lt_of_le h25 (by decide +kernel))]
  simp [List.getElem_take]

/-- The first request wakes the thread, or says why it could not. -/
example : seen (addT (env true) none READ 0 0 busy old) = some (0, bytes "earlier") := by decide +kernel
example : seen (addT (env true) (some full) READ 0 0 busy old) = some (-1, bytes "poll wakeup : pipe send() : err(10035) ") := by decide +kernel
example : seen (delT (env true) (some full) READ 0 0 busy old) = some (-1, bytes "poll wakeup : pipe send() : err(10035) ") := by decide +kernel
example : seen (addT (env false) none READ 0 0 busy old) = some (-1, bytes "Out of memory.") := by decide +kernel

/-- The second request does not wake it again, so the pipe does not matter. -/
example : seen (do
    let (_, s, err) ← addT (env true) none READ 0 0 busy old
    addT (env true) (some full) READ 0 1 s err) = some (0, bytes "earlier") := by decide +kernel

/-- The same for a wait -/
def seenWait (r : Res (Int × List (Bits × Nat) × Sys × List UInt8)) : Option (Int × List UInt8) :=
  seen (do let (rc, _, s, err) ← r; .ok (rc, s, err))

/-- Sixteen sockets were asked for while a thread polled: its wait ends well, or says that there is no memory. -/
def asked : Nat → Res Sys
  | 0 => .ok busy
  | k + 1 => do
    let s ← asked k
    let (_, s, _) ← addT (env true) none READ 0 k s old
    .ok s

example : seenWait (do let s ← asked 16; finishT (env true) s old) = some (0, bytes "earlier") := by decide +kernel
example : seenWait (do let s ← asked 16; finishT (env false) s old) = some (-1, bytes "Out of memory.") := by decide +kernel
example : seenWait (do let s ← asked 15; finishT (env false) s old) = some (0, bytes "earlier") := by decide +kernel

/-- Texts of the system: it has one for error 10038. -/
def texts : Sock.Win.Texts := ⟨fun er => if er = 10038 then some (bytes "Not a socket." ++ [0]) else none⟩

/-- Waiting fails with an error that has a text, or with one that has none. -/
example : seenWait (failWaitT (env true) texts 10038 busy old) = some (-1, bytes "Not a socket.") := by decide +kernel
example : seenWait (failWaitT (env true) texts 10022 busy old) = some (-1, bytes "earlier") := by decide +kernel

/-- A second thread must not wait, and nobody for a poller that does not exist. -/
def seenBegin (r : Res (Began × List UInt8)) : Option (Int × List UInt8) :=
  match r with
  | .ok (.returned rc _ s, err) => seen (.ok (rc, s, err))
  | .ok (.asks s, err) => seen (.ok (77, s, err))
  | _ => none

example : seenBegin (beginWaitT sys old) = some (77, bytes "earlier") := by decide +kernel
example : seenBegin (beginWaitT busy old) =
    some (-1, bytes "poll : polling is already in progress in a parallel thread") := by decide +kernel
example : seenBegin (beginWaitT { sys with p := { sys.p with events := none } } old) =
    some (-1, bytes "poll : sc_sock_poll is not initialized or already terminated") := by decide +kernel

/-- Calls of the system, of which the `bad` ones fail with error 10055 -/
def sock (bad : List Nat) : Sock.PipeText.Env := ⟨⟨fun n => if bad.contains n then some 10055 else none, fun _ => 0⟩, fun n _ => n⟩

/-- Creating a poller -/
def seenInit (r : Res (Int × List UInt8)) : Option (Int × List UInt8) := seen (do let (rc, err) ← r; .ok (rc, sys, err))

example : seenInit (initT (fun _ => true) 0 (sock []) ⟨[], 0⟩ old) = some (0, bytes "earlier") := by decide +kernel
example : seenInit (initT (fun n => n ≠ 2) 0 (sock []) ⟨[], 0⟩ old) = some (-1, bytes "Out of memory.") := by decide +kernel
example : seenInit (initT (fun _ => true) 0 (sock [8]) ⟨[], 0⟩ old) = some (-1, bytes "sc_sock_pipe_init() : 10055 ") := by decide +kernel
example : seenInit (initT (fun _ => true) 0 (sock [9]) ⟨[], 0⟩ old) = some (0, bytes "earlier") := by decide +kernel

/-- Destroying it -/
def seenTerm (r : Res (Int × Sock.Io.Pipe × List UInt8)) : Option (Int × List UInt8) := seen (do let (rc, _, err) ← r; .ok (rc, sys, err))

example : seenTerm (termT (sock []) 0 full old) = some (0, bytes "earlier") := by decide +kernel
example : seenTerm (termT (sock [0]) 0 full old) = some (-1, bytes "poll term : closesocket() : err(10055) ") := by decide +kernel

end Verif.Poll.WinText.Cases
