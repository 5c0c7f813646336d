import Verif.Map.Model

/-! # Model of `murmurhash` and of the string comparison, `map/sc_map.c:352-394`

Memory is a list of bytes, a `const char *` is an index into it. -/

namespace Verif.Map

/-- `strlen`, counting from `p + i`. -/
def strlenFrom (mem : List Nat) (p : Nat) : (fuel i : Nat) → Res Nat
  | 0, _ => .ub
  | fuel + 1, i => do
    let b ← rd mem (p + i)
    if b = 0 then .ok i else strlenFrom mem p fuel (i + 1)

/-- `strlen(p)`. -/
def strlen (mem : List Nat) (p : Nat) : Res Nat := strlenFrom mem p (mem.length + 1) 0

/-- `memcpy(&k, p, n)` into a zeroed integer on a little-endian machine. -/
def loadLE (mem : List Nat) (p : Nat) : Nat → Res Nat
  | 0 => .ok 0
  | n + 1 => do
    let b ← rd mem p
    let r ← loadLE mem (p + 1) n
    .ok (b + 256 * r)

/-- The constant `m`, map/sc_map.c:354. -/
def murM : Nat := 0xc6a4a7935bd1e995

/-- The loop over 8-byte blocks, map/sc_map.c:360-371: `n` blocks from `p` on. -/
def murBlocks (mem : List Nat) : (n p h : Nat) → Res (Nat × Nat)
  | 0, p, h => .ok (p, h)
  | n + 1, p, h => do
    let k ← loadLE mem p 8
    let k := mul64 k murM
    let k := k ^^^ (k >>> 47)
    let k := mul64 k murM
    let h := h ^^^ k
    let h := mul64 h murM
    murBlocks mem n (p + 8) h

/-- The fall-through switch, map/sc_map.c:373-384: `h ^= p[r-1] << 8*(r-1)`, ...,
`h ^= p[0]`. -/
def murTail (mem : List Nat) (p : Nat) : (r h : Nat) → Res Nat
  | 0, h => .ok h
  | r + 1, h => do
    let b ← rd mem (p + r)
    murTail mem p r (h ^^^ (b <<< (8 * r)))

/-- `murmurhash`, map/sc_map.c:352-391. -/
def murmur (mem : List Nat) (key : Nat) : Res Nat := do
  let len ← strlen mem key
  let h := mul64 len murM
  let (p, h) ← murBlocks mem (len / 8) key h
  let h ← murTail mem p (len % 8) h
  let h := if len % 8 = 0 then h else mul64 h murM
  let h := h ^^^ (h >>> 47)
  let h := mul64 h murM
  let h := h ^^^ (h >>> 47)
  return h % W32

/-- `strcmp(a, b) == 0` (`sc_map_streq`, map/sc_map.c:394), comparing from offset `i`. -/
def streqFrom (mem : List Nat) (a b : Nat) : (fuel i : Nat) → Res Bool
  | 0, _ => .ub
  | fuel + 1, i => do
    let x ← rd mem (a + i)
    let y ← rd mem (b + i)
    if x ≠ y then .ok false
    else if x = 0 then .ok true
    else streqFrom mem a b fuel (i + 1)

/-- `sc_map_streq`. -/
def streq (mem : List Nat) (a b : Nat) : Res Bool := streqFrom mem a b (mem.length + 1) 0

/-- The NUL-terminated string `s` is stored at `p`. -/
structure CStr (mem : List Nat) (p : Nat) (s : List Nat) : Prop where
  bytes : ∀ i (h : i < s.length), mem[p + i]? = some s[i]
  nonzero : ∀ b ∈ s, b ≠ 0
  nul : mem[p + s.length]? = some 0

/-- `murmurhash` of a string, by its content. -/
def murmurOf (s : List Nat) : Nat :=
  match murmur (s ++ [0]) 0 with
  | .ok h => h
  | .ub => 0

theorem CStr.self {s : List Nat} (h : ∀ b ∈ s, b ≠ 0) : CStr (s ++ [0]) 0 s :=
  ⟨by intro i hi; rw [Nat.zero_add, List.getElem?_append_left hi, List.getElem?_eq_getElem hi], h,
    by simp⟩

theorem CStr.rd {mem : List Nat} {p : Nat} {s : List Nat} (c : CStr mem p s) {i : Nat}
    (h : i ≤ s.length) : rd mem (p + i) = .ok (s[i]?.getD 0) := by
  rw [rd_eq_ok]
  by_cases hi : i < s.length
  · rw [c.bytes i hi]; simp [hi]
  · have : i = s.length := by omega
    subst this
    rw [c.nul]; simp

theorem CStr.lt {mem : List Nat} {p : Nat} {s : List Nat} (c : CStr mem p s) :
    p + s.length < mem.length := (List.getElem?_eq_some_iff.1 c.nul).1

theorem strlenFrom_eq {mem : List Nat} {p : Nat} {s : List Nat} (c : CStr mem p s) :
    ∀ (d i fuel : Nat), i + d = s.length → d < fuel → strlenFrom mem p fuel i = .ok s.length := by
  intro d
  induction d with
  | zero =>
    intro i fuel hi hf
    obtain ⟨fuel, rfl⟩ : ∃ f, fuel = f + 1 := ⟨fuel - 1, by omega⟩
    have : i = s.length := by omega
    subst this
    simp [strlenFrom, c.rd]
  | succ d ih =>
    intro i fuel hi hf
    obtain ⟨fuel, rfl⟩ : ∃ f, fuel = f + 1 := ⟨fuel - 1, by omega⟩
    have hil : i < s.length := by omega
    have hne := c.nonzero s[i] (List.getElem_mem hil)
    simp only [strlenFrom, c.rd (Nat.le_of_lt hil), Res.ok_bind]
    rw [List.getElem?_eq_getElem hil]
    simp only [Option.getD_some, hne, if_false]
    exact ih (i + 1) fuel (by omega) (by omega)

theorem strlen_eq {mem : List Nat} {p : Nat} {s : List Nat} (c : CStr mem p s) :
    strlen mem p = .ok s.length :=
  strlenFrom_eq c s.length 0 _ (by omega) (by have := c.lt; omega)

/-- Loading depends only on the content. -/
theorem loadLE_eq {mem mem' : List Nat} {p p' : Nat} {s : List Nat} (c : CStr mem p s)
    (c' : CStr mem' p' s) : ∀ (n i : Nat), i + n ≤ s.length →
    ∃ v, loadLE mem (p + i) n = .ok v ∧ loadLE mem' (p' + i) n = .ok v := by
  intro n
  induction n with
  | zero => intro i _; exact ⟨0, rfl, rfl⟩
  | succ n ih =>
    intro i hi
    obtain ⟨v, h1, h2⟩ := ih (i + 1) (by omega)
    refine ⟨s[i]?.getD 0 + 256 * v, ?_, ?_⟩
    · simp only [loadLE, c.rd (show i ≤ s.length by omega), Res.ok_bind, Nat.add_assoc, h1]
    · simp only [loadLE, c'.rd (show i ≤ s.length by omega), Res.ok_bind, Nat.add_assoc, h2]

theorem murBlocks_eq {mem mem' : List Nat} {p p' : Nat} {s : List Nat} (c : CStr mem p s)
    (c' : CStr mem' p' s) : ∀ (n i h : Nat), i + 8 * n ≤ s.length →
    ∃ v, murBlocks mem n (p + i) h = .ok (p + (i + 8 * n), v) ∧
      murBlocks mem' n (p' + i) h = .ok (p' + (i + 8 * n), v) := by
  intro n
  induction n with
  | zero => intro i h _; exact ⟨h, by simp [murBlocks], by simp [murBlocks]⟩
  | succ n ih =>
    intro i h hi
    obtain ⟨v, h1, h2⟩ := loadLE_eq c c' 8 i (by omega)
    simp only [murBlocks, h1, h2, Res.ok_bind]
    obtain ⟨w, h3, h4⟩ := ih (i + 8) (mul64 (h ^^^ mul64 (mul64 v murM ^^^ mul64 v murM >>> 47)
      murM) murM) (by omega)
    refine ⟨w, ?_, ?_⟩
    · rw [Nat.add_assoc p, h3]; congr 2; omega
    · rw [Nat.add_assoc p', h4]; congr 2; omega

theorem murTail_eq {mem mem' : List Nat} {p p' : Nat} {s : List Nat} (c : CStr mem p s)
    (c' : CStr mem' p' s) (i : Nat) : ∀ (r h : Nat), i + r ≤ s.length →
    ∃ v, murTail mem (p + i) r h = .ok v ∧ murTail mem' (p' + i) r h = .ok v := by
  intro r
  induction r with
  | zero => intro h _; exact ⟨h, rfl, rfl⟩
  | succ r ih =>
    intro h hi
    simp only [murTail, Nat.add_assoc, c.rd (show i + r ≤ s.length by omega),
      c'.rd (show i + r ≤ s.length by omega), Res.ok_bind]
    exact ih _ (by omega)

theorem murmur_agree {mem mem' : List Nat} {p p' : Nat} {s : List Nat} (c : CStr mem p s)
    (c' : CStr mem' p' s) : ∃ h, h < W32 ∧ murmur mem p = .ok h ∧ murmur mem' p' = .ok h := by
  obtain ⟨v, h1, h2⟩ := murBlocks_eq c c' (s.length / 8) 0 (mul64 s.length murM) (by omega)
  obtain ⟨w, h3, h4⟩ := murTail_eq c c' (0 + 8 * (s.length / 8)) (s.length % 8) v (by omega)
  rw [Nat.add_zero] at h1 h2
  unfold murmur
  simp only [strlen_eq c, strlen_eq c', Res.ok_bind, h1, h2, h3, h4, Res.pure_eq]
  exact ⟨_, Nat.mod_lt _ (by decide), rfl, rfl⟩

theorem murmur_eq {mem : List Nat} {p : Nat} {s : List Nat} (c : CStr mem p s) :
    murmur mem p = .ok (murmurOf s) := by
  obtain ⟨h, _, h1, h2⟩ := murmur_agree c (CStr.self c.nonzero)
  unfold murmurOf
  rw [h1, h2]

theorem streqFrom_eq {mem : List Nat} {a b : Nat} {s t : List Nat} (c : CStr mem a s)
    (c' : CStr mem b t) : ∀ (d i fuel : Nat), i + d = s.length → i ≤ t.length →
    s.take i = t.take i → d < fuel → streqFrom mem a b fuel i = .ok (decide (s = t)) := by
  intro d
  induction d with
  | zero =>
    intro i fuel hi hit hpre hf
    obtain ⟨fuel, rfl⟩ : ∃ f, fuel = f + 1 := ⟨fuel - 1, by omega⟩
    have : i = s.length := by omega
    subst this
    simp only [streqFrom, c.rd (Nat.le_refl _), c'.rd hit, Res.ok_bind]
    rw [List.getElem?_eq_none (Nat.le_refl _), Option.getD_none]
    rw [List.take_length] at hpre
    by_cases hlt : s.length < t.length
    · rw [List.getElem?_eq_getElem hlt, Option.getD_some]
      have hne := c'.nonzero t[s.length] (List.getElem_mem hlt)
      have hst : s ≠ t := by rintro rfl; omega
      rw [if_pos (Ne.symm hne)]; simp [hst]
    · have he : s.length = t.length := by omega
      have hst : s = t := by rw [hpre, he, List.take_length]
      subst hst; simp
  | succ d ih =>
    intro i fuel hi hit hpre hf
    obtain ⟨fuel, rfl⟩ : ∃ f, fuel = f + 1 := ⟨fuel - 1, by omega⟩
    have his : i < s.length := by omega
    simp only [streqFrom, c.rd (Nat.le_of_lt his), c'.rd hit, Res.ok_bind]
    rw [List.getElem?_eq_getElem his, Option.getD_some]
    have hne := c.nonzero s[i] (List.getElem_mem his)
    by_cases hlt : i < t.length
    · rw [List.getElem?_eq_getElem hlt, Option.getD_some]
      by_cases he : s[i] = t[i]
      · rw [if_neg (by simpa using he), if_neg hne]
        refine ih (i + 1) fuel (by omega) (by omega) ?_ (by omega)
        rw [List.take_add_one, List.take_add_one, hpre, List.getElem?_eq_getElem his,
          List.getElem?_eq_getElem hlt, he]
      · rw [if_pos he]
        have hst : s ≠ t := by rintro rfl; exact he rfl
        simp [hst]
    · rw [List.getElem?_eq_none (by omega), Option.getD_none, if_pos hne]
      have hst : s ≠ t := by rintro rfl; omega
      simp [hst]

theorem streq_eq {mem : List Nat} {a b : Nat} {s t : List Nat} (c : CStr mem a s)
    (c' : CStr mem b t) : streq mem a b = .ok (decide (s = t)) :=
  streqFrom_eq c c' s.length 0 _ (by omega) (by omega) (by simp) (by have := c.lt; omega)

end Verif.Map
