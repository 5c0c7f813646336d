import Verif.Sock.IoModel
import Verif.Sock.Lemmas

/-!
# The texts of addresses

Specification, model and properties of `sc_sock_local_str`, `sc_sock_remote_str` and
`sc_sock_print`.
-/

namespace Verif.Sock.Name

/-! ## Specification -/

/-- What a socket is bound or connected to -/
inductive Name where
  | inet (family : Int) (addr : List UInt8) (port : Nat)
  | unix (path : List UInt8)
  | unnamed

/-- The text of a name: the address as the system writes it, a colon and the port in decimal, or the
path, or nothing. -/
def text (ntop : Int → List UInt8 → List UInt8) : Name → List UInt8
  | .inet family addr port => ntop family addr ++ [58] ++ dec port
  | .unix path => path
  | .unnamed => []

/-! ## Model -/

/-- `struct sockaddr_storage` as the system filled it in: the two bytes of the port, most significant
first, the address, and the 126 bytes after the family if that is `AF_UNIX`. Bytes the system did not
write have no value. -/
structure Storage where
  family : Int
  port : UInt8 × UInt8
  addr : List UInt8
  path : List (Option UInt8)

/-- What `inet_ntop` writes into 46 bytes, without the null byte, if it succeeds -/
structure NameEnv extends Env where
  ntop : Int → List UInt8 → Option (List UInt8)

/-- The string at the start of memory of which some bytes may have no value -/
def readStr : List (Option UInt8) → Res (List UInt8)
  | [] => .ub
  | none :: _ => .ub
  | some b :: bs => if b = 0 then .ok [] else do
    let s ← readStr bs
    .ok (b :: s)

/-- `ntohs` of a port -/
def ntohs (p : UInt8 × UInt8) : Nat := p.1.toNat * 256 + p.2.toNat

/-- `sc_sock_print_storage`, socket/sc_sock.c:779-813. If `inet_ntop` fails, the null pointer that
`sc_sock_addr`, socket/sc_sock.c:765-777, returns is printed with `%s`, which is undefined. -/
def printStorage (e : NameEnv) (st : Storage) (buf : List UInt8) (len : Nat) : Res (List UInt8) := do
  let buf ← wr buf 0 0
  if st.family = 2 ∨ st.family = AF_INET6 then
    match e.ntop st.family st.addr with
    | none => .ub
    | some t => do
      let (buf, _) ← vsnprintf buf 0 len (some (t ++ [58] ++ dec (ntohs st.port)))
      .ok buf
  else if st.family = AF_UNIX then do
    let t ← readStr st.path
    let (buf, _) ← vsnprintf buf 0 len (some t)
    .ok buf
  else .ok buf

/-- `sc_sock_local_str` and `sc_sock_remote_str`, socket/sc_sock.c:815-845, which differ in the call
that fills in `st`: whether the buffer is returned. -/
def nameStr (e : NameEnv) (st : Storage) (buf : List UInt8) (len : Nat) (os : Os) (s : Sock) :
    Res (Bool × Os × Sock × List UInt8) :=
  match attempt e.toEnv os with
  | (false, os) => do
    let s ← errstr e.toEnv 0 os s
    let buf ← wr buf 0 0
    .ok (false, os, s, buf)
  | (true, os) => do
    let buf ← printStorage e st buf len
    .ok (true, os, s, buf)

/-- `"Local(%s), Remote(%s) "` -/
def printText (l r : List UInt8) : List UInt8 :=
  [76, 111, 99, 97, 108, 40] ++ l ++ [41, 44, 32, 82, 101, 109, 111, 116, 101, 40] ++ r ++ [41, 32]

/-- `sc_sock_print`, socket/sc_sock.c:847-856; `l` and `r` are the local arrays of 128 bytes, with any
contents. -/
def print (e : NameEnv) (l r : List UInt8) (loc rem : Storage) (buf : List UInt8) (len : Nat) (os : Os) (s : Sock) :
    Res (Os × Sock × List UInt8) := do
  let (_, os, s, l) ← nameStr e loc l 128 os s
  let (_, os, s, r) ← nameStr e rem r 128 os s
  let ls ← cstr l 0
  let rs ← cstr r 0
  let (buf, _) ← vsnprintf buf 0 len (some (printText ls rs))
  .ok (os, s, buf)

/-! ## Properties -/

/-- What `inet_ntop` can be relied on for: addresses have texts of at most 45 bytes without null
bytes. -/
structure NameLaws (e : NameEnv) : Prop extends Laws e.toEnv where
  ntop : ∀ f a, f = 2 ∧ a.length = 4 ∨ f = AF_INET6 ∧ a.length = 16 →
    ∃ t, e.ntop f a = some t ∧ t.length ≤ 45 ∧ ∀ b ∈ t, b ≠ 0

/-- How the system fills in a name. -/
inductive Filled : Storage → Name → Prop
  | inet4 {st} : st.family = 2 → st.addr.length = 4 → Filled st (.inet 2 st.addr (ntohs st.port))
  | inet6 {st} : st.family = AF_INET6 → st.addr.length = 16 → Filled st (.inet AF_INET6 st.addr (ntohs st.port))
  | unix {st p rest} : st.family = AF_UNIX → (∀ b ∈ p, b ≠ 0) → p ≠ [] → st.path = p.map some ++ [some 0] ++ rest →
    Filled st (.unix p)

/-- The text of an address, where there is one. -/
def NameEnv.text (e : NameEnv) : Int → List UInt8 → List UInt8 := fun f a => (e.ntop f a).getD []

theorem readStr_ok {p : List UInt8} (hp : ∀ b ∈ p, b ≠ 0) (rest : List (Option UInt8)) :
    readStr (p.map some ++ [some 0] ++ rest) = .ok p := by
  induction p with
  | nil => simp [readStr]
  | cons b p ih =>
    have hb := hp b (by simp)
    have := ih (fun c hc => hp c (List.mem_cons_of_mem _ hc))
    simp only [List.map_cons, List.cons_append, readStr]
    rw [if_neg hb, this]
    rfl

theorem dec_nonzero (n : Nat) : ∀ b ∈ dec n, b ≠ 0 ∧ b ≠ 58 := by
  intro b hb
  have := (dec_spec n).2.1 b hb
  constructor
  · rintro rfl; revert this; decide
  · rintro rfl; revert this; decide

theorem dec_length {n : Nat} (h : n < 65536) : (dec n).length ≤ 5 := by
  have step : ∀ n, (dec n).length = if n < 10 then 1 else (dec (n / 10)).length + 1 := by
    intro n
    rw [dec]
    split <;> simp [*]
  rw [step]; split
  · omega
  rw [step]; split
  · omega
  rw [step]; split
  · omega
  rw [step]; split
  · omega
  rw [step]; split
  · omega
  · omega

theorem ntohs_lt (p : UInt8 × UInt8) : ntohs p < 65536 := by
  have h1 := p.1.toNat_lt
  have h2 := p.2.toNat_lt
  unfold ntohs
  omega

/-- `vsnprintf` into a buffer of `len` bytes leaves a string, the text cut to its size. -/
theorem vsnprintf_cstr {t : List UInt8} (ht : ∀ b ∈ t, b ≠ 0) {buf : List UInt8} {len : Nat} (h0 : 0 < len) (hl : len ≤ buf.length) :
    ∃ buf' n, vsnprintf buf 0 len (some t) = .ok (buf', n) ∧ buf'.length = buf.length ∧ CStr buf' 0 (t.take (len - 1)) ∧
      buf'.drop len = buf.drop len := by
  unfold vsnprintf
  have hlen : (t.take (len - 1) ++ [(0 : UInt8)]).length ≤ len := by simp; omega
  simp only [Nat.zero_add]
  rw [if_neg (by omega), if_pos (by omega)]
  refine ⟨_, _, rfl, length_splice (by omega), ⟨?_, fun b hb => ht b (List.mem_of_mem_take hb), ?_⟩, ?_⟩
  · intro i hi
    rw [splice_getElem? (by omega), Nat.zero_add, if_neg (by omega), if_pos (by simp at hi ⊢; omega), Nat.sub_zero,
      List.getElem?_append_left hi, List.getElem?_eq_getElem hi]
  · rw [splice_getElem? (by omega), Nat.zero_add, if_neg (by omega), if_pos (by simp), Nat.sub_zero]
    simp
  · apply List.ext_getElem?
    intro j
    rw [List.getElem?_drop, List.getElem?_drop, splice_getElem? (by omega), if_neg (by omega), if_neg (by omega)]

theorem printStorage_ok {e : NameEnv} (he : NameLaws e) {st : Storage} {nm : Name} (hst : Filled st nm) {buf : List UInt8} {len : Nat}
    (h0 : 0 < len) (hl : len ≤ buf.length) :
    ∃ buf', printStorage e st buf len = .ok buf' ∧ buf'.length = buf.length ∧ CStr buf' 0 ((text e.text nm).take (len - 1)) ∧
      buf'.drop len = buf.drop len ∧ (∀ b ∈ text e.text nm, b ≠ 0) ∧ (∀ f a p, nm = .inet f a p → (text e.text nm).length ≤ 51) := by
  have hd : ∀ (b : List UInt8), (b.set 0 0).drop len = b.drop len := by
    intro b
    apply List.ext_getElem?
    intro j
    rw [List.getElem?_drop, List.getElem?_drop, List.getElem?_set_ne (by omega)]
  unfold printStorage
  rw [wr_lt (by omega)]
  simp only [Res.ok_bind]
  have key : ∀ f, f = 2 ∧ st.addr.length = 4 ∨ f = AF_INET6 ∧ st.addr.length = 16 → st.family = f →
      ∃ t, e.ntop st.family st.addr = some t ∧ text e.text (.inet f st.addr (ntohs st.port)) = t ++ [58] ++ dec (ntohs st.port) ∧
      (∀ b ∈ t ++ [58] ++ dec (ntohs st.port), b ≠ 0) ∧ (t ++ [58] ++ dec (ntohs st.port)).length ≤ 51 := by
    intro f hf hfam
    obtain ⟨t, h1, h2, h3⟩ := he.ntop f st.addr hf
    refine ⟨t, by rw [hfam]; exact h1, by simp only [text, NameEnv.text]; rw [h1]; rfl, ?_, ?_⟩
    · intro b hb
      simp only [List.mem_append, List.mem_singleton] at hb
      rcases hb with (hb | hb) | hb
      · exact h3 b hb
      · subst hb; decide
      · exact (dec_nonzero _ b hb).1
    · have := dec_length (ntohs_lt st.port)
      simp only [List.length_append, List.length_singleton]
      omega
  cases hst with
  | inet4 h1 h2 =>
    obtain ⟨t, k1, k2, k3, k4⟩ := key 2 (.inl ⟨rfl, h2⟩) h1
    rw [if_pos (.inl h1), k1]
    obtain ⟨buf', n, m1, m2, m3, m4⟩ := vsnprintf_cstr k3 (buf := buf.set 0 0) h0 (by simpa using hl)
    simp only
    rw [m1]
    rw [k2]
    exact ⟨buf', rfl, by simpa using m2, m3, by rw [m4, hd], k3, fun _ _ _ _ => k4⟩
  | inet6 h1 h2 =>
    obtain ⟨t, k1, k2, k3, k4⟩ := key AF_INET6 (.inr ⟨rfl, h2⟩) h1
    rw [if_pos (.inr h1), k1]
    obtain ⟨buf', n, m1, m2, m3, m4⟩ := vsnprintf_cstr k3 (buf := buf.set 0 0) h0 (by simpa using hl)
    simp only
    rw [m1]
    rw [k2]
    exact ⟨buf', rfl, by simpa using m2, m3, by rw [m4, hd], k3, fun _ _ _ _ => k4⟩
  | @unix p rest h1 h2 h3 h4 =>
    rw [if_neg (by rw [h1]; decide), if_pos h1, h4]
    simp only [text] at *
    rw [readStr_ok h2]
    simp only [Res.ok_bind]
    obtain ⟨buf', n, m1, m2, m3, m4⟩ := vsnprintf_cstr h2 (buf := buf.set 0 0) h0 (by simpa using hl)
    rw [m1]
    exact ⟨buf', rfl, by simpa using m2, m3, by rw [m4, hd], h2, fun _ _ _ h => by cases h⟩

/-- **C99**, where it holds: for a buffer that is not empty and a socket that has a name, the buffer
has the text of the name, cut to its size, and nothing after the buffer changes; or the call fails,
the buffer is the empty string and the error has a text. -/
theorem name_partial {e : NameEnv} (he : NameLaws e) {st : Storage} {nm : Name} (hst : Filled st nm) {buf : List UInt8} {len : Nat}
    (h0 : 0 < len) (hl : len ≤ buf.length) {os : Os} {s : Sock} (hs : s.err.length = 128) :
    ∃ r os' s' buf', nameStr e st buf len os s = .ok (r, os', s', buf') ∧ os'.fds = os.fds ∧ buf'.length = buf.length ∧
      s'.err.length = 128 ∧ buf'.drop len = buf.drop len ∧
      (r = true ∧ s' = s ∧ CStr buf' 0 ((text e.text nm).take (len - 1)) ∨
       r = false ∧ CStr buf' 0 [] ∧ ∃ m, Recent os os' m ∧ Shows s'.err m) := by
  unfold nameStr
  obtain ⟨⟨k1, k2, k3⟩, -⟩ := attempt_ok e.toEnv os
  generalize attempt e.toEnv os = r at k1 k2 k3 ⊢
  obtain ⟨b, os'⟩ := r
  simp only at k1 k2 k3
  cases b with
  | false =>
    obtain ⟨err, m1, m2, m3⟩ := errstr_ok he.toLaws (g := 0) (os := os') hs
    simp only
    rw [m1]
    simp only [Res.ok_bind]
    rw [wr_lt (by omega)]
    refine ⟨_, _, _, _, rfl, k1, by simp, m2, ?_, .inr ⟨rfl, ⟨by simp, by simp, ?_⟩, _, k3 rfl, by simpa using m3⟩⟩
    · apply List.ext_getElem?
      intro j
      rw [List.getElem?_drop, List.getElem?_drop, List.getElem?_set_ne (by omega)]
    · rw [List.length_nil, Nat.add_zero, List.getElem?_set_self (by omega)]
  | true =>
    obtain ⟨buf', m1, m2, m3, m4, -⟩ := printStorage_ok he hst h0 hl
    simp only
    rw [m1]
    exact ⟨_, _, _, _, rfl, k1, m2, hs, m4, .inl ⟨rfl, rfl, m3⟩⟩

/-- Nothing is cut off internet addresses in a buffer of 52 bytes. -/
theorem inet_uncut {e : NameEnv} (he : NameLaws e) {st : Storage} {f : Int} {a : List UInt8} {p : Nat}
    (hst : Filled st (.inet f a p)) {len : Nat} (hl : 52 ≤ len) :
    (text e.text (.inet f a p)).take (len - 1) = text e.text (.inet f a p) := by
  obtain ⟨_, -, -, -, -, -, h⟩ := printStorage_ok he hst (buf := List.replicate len 0) (len := len) (by omega) (by simp)
  exact List.take_of_length_le (by have := h _ _ _ rfl; omega)

/-- Different names have different texts, if different addresses have: the last colon is where the
port begins. -/
theorem text_inj {ntop : Int → List UInt8 → List UInt8} {f f' : Int} {a a' : List UInt8} {p p' : Nat}
    (h : text ntop (.inet f a p) = text ntop (.inet f' a' p')) : ntop f a = ntop f' a' ∧ p = p' := by
  simp only [text, List.append_assoc] at h
  have split : ∀ (x y d d' : List UInt8), (∀ b ∈ d, b ≠ 58) → (∀ b ∈ d', b ≠ 58) → x ++ ([58] ++ d) = y ++ ([58] ++ d') →
      x = y ∧ d = d' := by
    intro x
    induction x with
    | nil =>
      intro y d d' hd hd' hxy
      cases y with
      | nil => simpa using hxy
      | cons c y =>
        simp only [List.nil_append, List.cons_append, List.cons.injEq] at hxy
        exact absurd rfl (hd 58 (by rw [hxy.2]; simp))
    | cons c x ih =>
      intro y d d' hd hd' hxy
      cases y with
      | nil =>
        simp only [List.nil_append, List.cons_append, List.cons.injEq] at hxy
        exact absurd rfl (hd' 58 (by rw [← hxy.2]; simp))
      | cons c' y =>
        simp only [List.cons_append, List.cons.injEq] at hxy
        obtain ⟨rfl, hxy⟩ := hxy
        obtain ⟨h1, h2⟩ := ih y d d' hd hd' hxy
        exact ⟨by rw [h1], h2⟩
  obtain ⟨h1, h2⟩ := split _ _ _ _ (fun b hb => (dec_nonzero p b hb).2) (fun b hb => (dec_nonzero p' b hb).2) h
  refine ⟨h1, ?_⟩
  rw [← (dec_spec p).2.2, ← (dec_spec p').2.2, h2]

/-- **C99** fails for a socket without a name, such as the other end of an accepted unix socket: the
system fills in the family only, and bytes that have no value are printed. -/
theorem unnamed_violated {e : NameEnv} {st : Storage} (hf : st.family = AF_UNIX) (hp : st.path = List.replicate 126 none)
    {buf : List UInt8} {len : Nat} {os : Os} {s : Sock} (hc : e.call os.n = none) : nameStr e st buf len os s = .ub := by
  unfold nameStr attempt
  rw [hc]
  simp only
  unfold printStorage
  rw [hp, hf]
  cases h : wr buf 0 0 with
  | ub => rfl
  | ok b => rfl

/-- **C99** fails for a buffer of 0 bytes, which `snprintf` would allow: one byte is written. -/
theorem empty_violated {e : NameEnv} {st : Storage} {os : Os} {s : Sock} (hc : e.call os.n = none) :
    nameStr e st [] 0 os s = .ub := by
  unfold nameStr attempt
  rw [hc]
  rfl

/-- Both names in one text: nothing of an internet address is cut in between. -/
theorem print_partial {e : NameEnv} (he : NameLaws e) {loc rem : Storage} {nl nr : Name} (hl : Filled loc nl) (hr : Filled rem nr)
    {l r buf : List UInt8} (h1 : l.length = 128) (h2 : r.length = 128) {len : Nat} (h0 : 0 < len) (hb : len ≤ buf.length)
    {os : Os} {s : Sock} (hs : s.err.length = 128) :
    ∃ os' s' buf' tl tr, print e l r loc rem buf len os s = .ok (os', s', buf') ∧ os'.fds = os.fds ∧ buf'.length = buf.length ∧
      (tl = (text e.text nl).take 127 ∨ tl = []) ∧ (tr = (text e.text nr).take 127 ∨ tr = []) ∧
      CStr buf' 0 ((printText tl tr).take (len - 1)) ∧ buf'.drop len = buf.drop len := by
  unfold print
  obtain ⟨b1, os1, s1, l1, k1, k2, k3, k4, -, k5⟩ := name_partial he hl (buf := l) (len := 128) (by omega) (by omega) (os := os) hs
  rw [k1]
  simp only [Res.ok_bind]
  obtain ⟨b2, os2, s2, r1, m1, m2, m3, m4, -, m5⟩ := name_partial he hr (buf := r) (len := 128) (by omega) (by omega) (os := os1) k4
  rw [m1]
  simp only [Res.ok_bind]
  obtain ⟨tl, hcl, htl⟩ : ∃ tl, CStr l1 0 tl ∧ (tl = (text e.text nl).take 127 ∨ tl = []) := by
    rcases k5 with ⟨-, -, h⟩ | ⟨-, h, -⟩
    · exact ⟨_, h, .inl rfl⟩
    · exact ⟨_, h, .inr rfl⟩
  obtain ⟨tr, hcr, htr⟩ : ∃ tr, CStr r1 0 tr ∧ (tr = (text e.text nr).take 127 ∨ tr = []) := by
    rcases m5 with ⟨-, -, h⟩ | ⟨-, h, -⟩
    · exact ⟨_, h, .inl rfl⟩
    · exact ⟨_, h, .inr rfl⟩
  rw [cstr_eq hcl]
  simp only [Res.ok_bind]
  rw [cstr_eq hcr]
  simp only [Res.ok_bind]
  have hne : ∀ b ∈ printText tl tr, b ≠ 0 := by
    intro b hb
    simp only [printText, List.mem_append] at hb
    rcases hb with (((hb | hb) | hb) | hb) | hb
    · revert b; decide
    · exact hcl.nonzero b hb
    · revert b; decide
    · exact hcr.nonzero b hb
    · revert b; decide
  obtain ⟨buf', n, p1, p2, p3, p4⟩ := vsnprintf_cstr hne h0 hb
  rw [p1]
  exact ⟨_, _, _, tl, tr, rfl, by rw [m2, k2], p2, htl, htr, p3, p4⟩

/-! ## Cases -/

/-- Texts of addresses: dotted quads for those of four bytes, `::` for the others -/
def env : NameEnv where
  strerror _ := [69, 0]
  gaiStr _ := [71, 0]
  call _ := none
  gai _ _ _ _ := .error 1
  newfd l := l.foldl (fun a b => max a (b + 1)) 0
  inherits _ := false
  pending _ := 0
  ntop _ a := match a with
    | [a, b, c, d] => some (dec a.toNat ++ [46] ++ dec b.toNat ++ [46] ++ dec c.toNat ++ [46] ++ dec d.toNat)
    | _ => some [58, 58]

theorem byte_dec (a : UInt8) : (dec a.toNat).length ≤ 3 := by
  have h := a.toNat_lt
  have step : ∀ n, (dec n).length = if n < 10 then 1 else (dec (n / 10)).length + 1 := by
    intro n
    rw [dec]
    split <;> simp [*]
  rw [step]; split
  · omega
  rw [step]; split
  · omega
  rw [step]; split
  · omega
  · omega

theorem foldl_ge (l : List Int) : ∀ a : Int, a ≤ l.foldl (fun a b => max a (b + 1)) a ∧
    ∀ b ∈ l, b < l.foldl (fun a b => max a (b + 1)) a := by
  induction l with
  | nil => intro a; simp
  | cons x xs ih =>
    intro a
    simp only [List.foldl_cons]
    obtain ⟨h1, h2⟩ := ih (max a (x + 1))
    refine ⟨by omega, ?_⟩
    intro b hb
    rcases List.mem_cons.1 hb with rfl | hb
    · omega
    · exact h2 b hb

theorem env_laws : NameLaws env where
  texts _ := ⟨[69], CStr.self (s := [69]) (by decide)⟩
  gtexts _ := ⟨[71], CStr.self (s := [71]) (by decide)⟩
  unused l h := by have := (foldl_ge l 0).2 _ h; simp only [env] at this; omega
  nonneg l := (foldl_ge l 0).1
  gaiErr h p f n rc hh := by simp [env] at hh; omega
  gaiOk h p f n hh := by simp [env] at hh
  ntop f a h := by
    match a with
    | [a, b, c, d] =>
      refine ⟨_, rfl, ?_, ?_⟩
      · have := byte_dec a
        have := byte_dec b
        have := byte_dec c
        have := byte_dec d
        simp only [List.length_append, List.length_singleton]
        omega
      · intro x hx
        simp only [List.mem_append, List.mem_singleton] at hx
        rcases hx with (((((hx | hx) | hx) | hx) | hx) | hx) | hx
        all_goals first | exact (dec_nonzero _ x hx).1 | (subst hx; decide)
    | [] => exact ⟨_, rfl, by decide, by decide⟩
    | [_] => exact ⟨_, rfl, by decide, by decide⟩
    | [_, _] => exact ⟨_, rfl, by decide, by decide⟩
    | [_, _, _] => exact ⟨_, rfl, by decide, by decide⟩
    | _ :: _ :: _ :: _ :: _ :: _ => exact ⟨_, rfl, by decide, by decide⟩

def lo : Storage := ⟨2, (31, 144), [127, 0, 0, 1], []⟩

example : Filled lo (.inet 2 [127, 0, 0, 1] 8080) := .inet4 (st := lo) rfl rfl

/-- `127.0.0.1:8080` -/
example : text env.text (.inet 2 [127, 0, 0, 1] 8080) = [49, 50, 55, 46, 48, 46, 48, 46, 49, 58, 56, 48, 56, 48] := by
  decide +kernel

end Verif.Sock.Name
