import Verif.Sock.Name

/-! # Model of socket/sc_sock.c: the error text of pollers -/

namespace Verif.Poll

open Sock.Name (vsnprintf_cstr)

/-- `sc_sock_poll_set_err`, socket/sc_sock.c:1102-1112; `text` is what the format yields and `err` the
128 bytes of `sc_sock_poll_errstr`, socket/sc_sock.c:1094. -/
def pollErr (text err : List UInt8) : Res (List UInt8) := do
  let (err, _) ← vsnprintf err 0 128 (some text)
  wr err (128 - 1) 0

theorem pollErr_ok {t : List UInt8} (ht : ∀ b ∈ t, b ≠ 0) {e : List UInt8} (hl : e.length = 128) :
    ∃ err, pollErr t e = .ok err ∧ err.length = 128 ∧ CStr err 0 (t.take 127) := by
  unfold pollErr
  obtain ⟨err, n, h1, h2, h3, -⟩ := vsnprintf_cstr ht (buf := e) (len := 128) (by omega) (by omega)
  rw [h1]
  simp only [Res.ok_bind]
  rw [wr_lt (by omega)]
  refine ⟨_, rfl, by rw [List.length_set]; omega, ⟨?_, h3.nonzero, ?_⟩⟩
  · intro i hi
    rw [List.getElem?_set_ne (by simp at hi; omega)]
    exact h3.bytes i hi
  · by_cases h127 : (t.take 127).length = 127
    · rw [h127, Nat.zero_add]; exact List.getElem?_set_self (by omega)
    · rw [List.getElem?_set_ne (by simp at h127 ⊢; omega)]
      exact h3.nul

end Verif.Poll
