import Verif.Queue.Props
import Verif.Cost.Array

/-! # What growing a queue costs -/

namespace Verif.Queue

/-- How often something is added, whether it succeeds or not -/
def adds : List (Op α) → Nat
  | [] => 0
  | .addFirst _ _ :: ops => adds ops + 1
  | .addLast _ _ :: ops => adds ops + 1
  | _ :: ops => adds ops

/-- The call takes an element away. -/
def Op.dels : Op α → Bool
  | .delFirst => true
  | .delLast => true
  | _ => false

/-- The sizes of the block of a queue before and after each call of a history that takes nothing from an empty queue -/
inductive Blocks : Q α → List (Op α) → List Nat → Prop
  | nil {q} : Blocks q [] [q.elems.length]
  | cons {q q' op out ops l} : (op.dels = true → empty q = false) → step q op = .ok (q', out) → Blocks q' ops l →
    Blocks q (op :: ops) (q.elems.length :: l)

/-- The same as a function; taking something from an empty queue is undefined -/
def blocks (q : Q α) : List (Op α) → Res (List Nat)
  | [] => .ok [q.elems.length]
  | op :: ops =>
    if op.dels && empty q then .ub else do
      let (q', _) ← step q op
      let l ← blocks q' ops
      .ok (q.elems.length :: l)

theorem blocks_rel (ops : List (Op α)) : ∀ {q : Q α} {l : List Nat}, blocks q ops = .ok l → Blocks q ops l := by
  induction ops with
  | nil => intro q l h; cases h; exact .nil
  | cons op ops ih =>
    intro q l h
    simp only [blocks] at h
    split at h
    · cases h
    · rename_i hd
      obtain ⟨⟨q', o⟩, hs, h⟩ := Res.bind_eq_ok.1 h
      obtain ⟨l', hl', h⟩ := Res.bind_eq_ok.1 h
      cases h
      exact .cons (fun hd' => by simpa [hd'] using hd) hs (ih hl')

theorem Blocks.head {q : Q α} {ops : List (Op α)} {l : List Nat} (h : Blocks q ops l) : l.head? = some q.elems.length := by
  cases h <;> rfl

theorem adds_cons (op : Op α) (ops : List (Op α)) : adds (op :: ops) = adds [op] + adds ops := by
  cases op <;> simp [adds, Nat.add_comm]

theorem expand_cap {q q' : Q α} {l : List α} (r : Rep q l) {al : Alloc α} (h : expand al q = .ok q') :
    q'.cap = q.cap ∨ l.length + 1 = q.cap ∧ q'.cap = 2 * q.cap := by
  rcases expand_cases r al with ⟨h', -⟩ | ⟨h', -⟩ | ⟨q'', h', hf, r', -⟩
  · rw [h'] at h; cases h; exact .inl rfl
  · rw [h'] at h; cases h; exact .inl rfl
  · rw [h'] at h; cases h
    unfold expand at h'
    simp only at h'
    split at h'
    · split at h'
      · cases h'; exact .inl rfl
      · split at h'
        · cases h'; exact .inl rfl
        · simp only [Res.bind_eq_ok] at h'
          obtain ⟨a, -, b, -, c, -, d, -, h'⟩ := h'
          cases h'
          refine .inr ⟨hf, ?_⟩
          have : q.cap * 2 < 2 ^ 64 := by omega
          simp only [mul64]
          rw [Nat.mod_eq_of_lt this, Nat.mul_comm]
    · cases h'; exact .inl rfl

/-- An addition leaves the block, or finds it full but for one cell and doubles it; the other calls leave it. -/
theorem step_block {q q' : Q α} {l : List α} (r : Rep q l) {op : Op α} {out : Option α} (hd : op.dels = true → empty q = false)
    (h : step q op = .ok (q', out)) :
    ∃ l', Rep q' l' ∧ l'.length ≤ l.length + adds [op] ∧ (q'.elems.length = q.elems.length ∨
      adds [op] = 1 ∧ l.length + 1 = q.elems.length ∧ q'.elems.length = 2 * q.elems.length) := by
  cases op with
  | addFirst x al =>
    simp only [step, Res.bind_eq_ok] at h
    obtain ⟨q₁, ha, h⟩ := h
    cases h
    have hc : q'.cap = q.cap ∨ l.length + 1 = q.cap ∧ q'.cap = 2 * q.cap := by
      unfold addFirst at ha
      obtain ⟨q₂, he, ha⟩ := Res.bind_eq_ok.1 ha
      have := expand_cap r he
      split at ha
      · cases ha; exact this
      · obtain ⟨m, -, ha⟩ := Res.bind_eq_ok.1 ha
        cases ha; exact this
    rcases addFirst_cases r al x with ⟨q'', h', r', -⟩ | ⟨h', -⟩
    · rw [h'] at ha; cases ha
      refine ⟨_, r', by simp [adds], ?_⟩
      rw [r'.len, r.len]
      exact hc.imp id fun h => ⟨rfl, h⟩
    · rw [h'] at ha; cases ha
      exact ⟨l, r.with_oom true, by simp [adds], .inl rfl⟩
  | addLast x al =>
    simp only [step, Res.bind_eq_ok] at h
    obtain ⟨q₁, ha, h⟩ := h
    cases h
    have hc : q'.cap = q.cap ∨ l.length + 1 = q.cap ∧ q'.cap = 2 * q.cap := by
      unfold addLast at ha
      obtain ⟨q₂, he, ha⟩ := Res.bind_eq_ok.1 ha
      have := expand_cap r he
      split at ha
      · cases ha; exact this
      · obtain ⟨m, -, ha⟩ := Res.bind_eq_ok.1 ha
        cases ha; exact this
    rcases addLast_cases r al x with ⟨q'', h', r', -⟩ | ⟨h', -⟩
    · rw [h'] at ha; cases ha
      refine ⟨_, r', by simp [adds], ?_⟩
      rw [r'.len, r.len]
      exact hc.imp id fun h => ⟨rfl, h⟩
    · rw [h'] at ha; cases ha
      exact ⟨l, r.with_oom true, by simp [adds], .inl rfl⟩
  | delFirst =>
    have he := hd rfl
    rw [r.empty] at he
    cases l with
    | nil => simp at he
    | cons x l =>
      obtain ⟨q'', h', r', -⟩ := r.delFirst
      simp only [step, h', Res.ok_bind, Res.pure_eq] at h
      cases h
      refine ⟨l, r', by simp; omega, .inl ?_⟩
      simp only [delFirst, Res.bind_eq_ok] at h'
      obtain ⟨y, -, h'⟩ := h'
      cases h'; rfl
  | delLast =>
    have he := hd rfl
    rw [r.empty] at he
    rcases List.eq_nil_or_concat l with rfl | ⟨l, x, rfl⟩
    · simp at he
    · rw [List.concat_eq_append] at r ⊢
      obtain ⟨q'', h', r', -⟩ := r.delLast
      simp only [step, h', Res.ok_bind, Res.pure_eq] at h
      cases h
      refine ⟨l, r', by simp; omega, .inl ?_⟩
      simp only [delLast, Res.bind_eq_ok] at h'
      obtain ⟨y, -, h'⟩ := h'
      cases h'; rfl
  | clear =>
    cases h
    exact ⟨[], r.clear, Nat.zero_le _, .inl rfl⟩

/-- What has been paid for: `n` elements were added and `k` copied before. -/
theorem blocks_copied {q : Q α} {ops : List (Op α)} {bs : List Nat} (h : Blocks q ops bs) : ∀ {l : List α} {n k : Nat},
    Rep q l → l.length ≤ n → (q.elems.length = 8 ∧ k = 0 ∨ 8 < q.elems.length ∧ q.elems.length ≤ 2 * n ∧ k + 8 ≤ q.elems.length) →
    k + Cost.copied bs ≤ 2 * (n + adds ops) := by
  induction h with
  | nil => intro l n k r hn h0; simp [Cost.copied, adds]; omega
  | cons hd hs hb ih =>
    intro l n k r hn h0
    rename_i op out ops bs
    rw [Cost.copied_cons hb.head, adds_cons]
    obtain ⟨l', r', hl', he | ⟨ha, hf, he⟩⟩ := step_block r hd hs
    · rw [if_pos he.symm]
      have := ih (n := n + adds [op]) (k := k) r' (by omega) (by omega)
      omega
    · rename_i q _
      rw [if_neg (by omega)]
      have := ih (n := n + adds [op]) (k := k + q.elems.length) r' (by omega) (by omega)
      omega

/-- **Growing a queue costs a constant per addition**: in every history that starts with a new queue, at most twice as many elements
are copied to larger blocks as were added, whether the allocations succeed or not.
Missing: buffers, for which it fails
(`buf_copies_violated`). -/
theorem queue_copies_partial {fill : Nat → α} {ops : List (Op α)} {bs : List Nat} (h : blocks (init (some fill)) ops = .ok bs) :
    Cost.copied bs ≤ 2 * adds ops := by
  have := blocks_copied (blocks_rel ops h) (n := 0) (k := 0) (rep_init fill) (Nat.le_refl _) (.inl ⟨by simp [init, fresh], rfl⟩)
  omega

/-- Nine additions and a deletion: the block gets twice as large at the last. -/
example : blocks (init (some fun _ => 0) : Q Nat) (.addFirst 1 none :: .delLast :: List.replicate 8 (.addLast 7 (some fun _ => 0))) =
    .ok (List.replicate 10 8 ++ [16]) ∧ Cost.copied (List.replicate 10 8 ++ [16]) = 8 := by
  constructor <;> decide +kernel

end Verif.Queue
