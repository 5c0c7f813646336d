import Verif.Memory.Safe
import Verif.Memory.Array
import Verif.Memory.Queue
import Verif.Memory.Heap
import Verif.Memory.Timer
import Verif.Memory.Map
import Verif.Memory.Buf
import Verif.Memory.Str
import Verif.Memory.Uri
import Verif.Array.Props
import Verif.Queue.Props
import Verif.Heap.Props
import Verif.Timer.Props
import Verif.Map.Props
import Verif.Buf.Props
import Verif.Str.Props
import Verif.Uri.Props

/-! # C105: programs that keep the rules own their memory

For each container: the rules of its API, and what programs that keep them can rely on. A
program makes, uses and destroys any number of objects in any order; the allocator may fail at
any time. -/

namespace Verif.Memory

/-- Arrays: indices are in range. -/
def Array.rules (sz : Nat) (α : Type) : Rules (Array.kind sz α) where
  arg _ := True
  op a op := match op with
    | .add _ _ | .clear => True
    | .del i | .delUnordered i => i < a.size
    | .delLast => a.size ≠ 0

theorem Array.rules_enough {sz : Nat} (hsz : 0 < sz) (h8 : 8 * sz ≤ SIZE_MAX) {α : Type} :
    (Array.rules sz α).Enough (Verif.Array.WF sz) := by
  refine ⟨?_, ?_⟩
  · intro a _
    exact ⟨_, rfl, fun x hx => by cases hx; exact Verif.Array.wf_init sz⟩
  · intro v op w hr
    have hlen := Verif.Array.WF.length_contents w
    rcases Verif.Array.step_cases hsz h8 w op with ⟨a', h1, h2, _⟩ | ⟨_, hn⟩
    · exact ⟨a', (), by show Res.bind _ _ = _; rw [h1]; rfl, h2⟩
    · refine absurd ?_ hn
      cases op with
      | add k al => trivial
      | clear => trivial
      | del i => show i < (Verif.Array.contents v).length; rw [hlen]; exact hr
      | delUnordered i => show i < (Verif.Array.contents v).length; rw [hlen]; exact hr
      | delLast =>
        show Verif.Array.contents v ≠ []
        intro e
        rw [e] at hlen
        exact hr hlen.symm

/-- **C105**, arrays. -/
theorem array_memory {sz : Nat} (hsz : 0 < sz) (h8 : 8 * sz ≤ SIZE_MAX) {α : Type}
    {as : List (Act (Array.kind sz α))} (h : (Array.rules sz α).Keeps (fun _ => none) as) :
    RunsTidily (Array.kind sz α) as := Rules.runs_tidily (Array.kind_sound sz α) (Array.rules_enough hsz h8) h

/-- Queues: they are used after `sc_queue_init` succeeded only, and nothing is taken from an
empty queue. -/
def Queue.rules (α : Type) : Rules (Queue.kind α) where
  arg _ := True
  op q op := q.elems ≠ [] ∧ (Verif.Queue.empty q = true → op ≠ .delFirst ∧ op ≠ .delLast)

theorem Queue.rules_enough {α : Type} :
    (Queue.rules α).Enough (fun q : Verif.Queue.Q α => q.elems = [] ∨ ∃ l, Verif.Queue.Rep q l) := by
  refine ⟨?_, ?_⟩
  · intro al _
    refine ⟨_, rfl, fun x hx => ?_⟩
    cases hx
    cases al with
    | none => exact Or.inl rfl
    | some fill => exact Or.inr ⟨[], Verif.Queue.rep_init fill⟩
  · intro q op w hr
    rcases w with w | ⟨l, w⟩
    · exact absurd w hr.1
    · rcases Verif.Queue.step_cases w op with ⟨q', out, l', h1, h2, _⟩ | hn
      · exact ⟨q', out, h1, Or.inr ⟨l', h2⟩⟩
      · refine absurd ?_ hn
        have he := w.empty
        have h2 := hr.2
        cases op with
        | delFirst =>
          intro e
          simp only at e
          exact (h2 (by rw [he, e]; rfl)).1 rfl
        | delLast =>
          intro e
          simp only at e
          exact (h2 (by rw [he, e]; rfl)).2 rfl
        | _ => trivial

/-- **C105**, queues. -/
theorem queue_memory {α : Type} {as : List (Act (Queue.kind α))}
    (h : (Queue.rules α).Keeps (fun _ => none) as) : RunsTidily (Queue.kind α) as :=
  Rules.runs_tidily (Queue.kind_sound α) Queue.rules_enough h

/-- Heaps: the initial capacity is less than 2^58, a heap has less than 2^57 elements, and no
`sc_heap_add` fails (C09). -/
def Heap.rules (δ : Type) : Rules (Heap.kind δ) where
  arg a := a.1 < 2 ^ 58
  op h op := h.size < 2 ^ 57 - 1 ∧ ∀ k d al, op = .add k d al → al ≠ none

theorem Heap.rules_enough {δ : Type} :
    (Heap.rules δ).Enough (fun h : Verif.Heap.Heap δ => Verif.Heap.WF h ∧ h.cap < 288230376151711744) := by
  refine ⟨?_, ?_⟩
  · intro a ha
    refine ⟨_, rfl, fun x hx => ?_⟩
    cases hx
    have h0 := Verif.Heap.init_size_cap a.1 a.2
    have ha : a.1 < 2 ^ 58 := ha
    exact ⟨Verif.Heap.wf_init a.1 a.2, by omega⟩
  · intro v op w hr
    obtain ⟨h', o, h1, h2, _, _, h3⟩ :=
      Verif.Heap.step_spec w.1 op hr.2 (by have := hr.1; omega) w.2
    exact ⟨h', o, h1, h2, h3⟩

/-- **C105**, heaps, as far as no `sc_heap_add` fails. -/
theorem heap_memory_partial {δ : Type} {as : List (Act (Heap.kind δ))}
    (h : (Heap.rules δ).Keeps (fun _ => none) as) : RunsTidily (Heap.kind δ) as :=
  Rules.runs_tidily (Heap.kind_sound δ) Heap.rules_enough h

/-- Timers: the first timestamp is less than `UINT64_MAX`, and the client keeps the rules of the
API (C22): `Verif.Timer.step` says `none` when it does not. -/
def Timer.rules (cb : σ → Nat → Nat → Nat → Verif.Timer.Prog σ) : Rules (Timer.kind cb) where
  arg a := a.1 < INVALID
  op v op := Verif.Timer.step cb v.1 v.2 op ≠ .ok none

theorem Timer.rules_enough {cb : σ → Nat → Nat → Nat → Verif.Timer.Prog σ} :
    (Timer.rules cb).Enough (fun v : Verif.Timer.Cfg × σ => ∃ live, Verif.Timer.RepC v.1 live) := by
  refine ⟨?_, ?_⟩
  · intro a ha
    refine ⟨_, rfl, fun x hx => ?_⟩
    cases hx
    exact ⟨_, Verif.Timer.repC_init ha⟩
  · intro v op w hr
    obtain ⟨live, w⟩ := w
    obtain ⟨o, ho, hg⟩ := Verif.Timer.step_spec cb (s := v.2) w op
    cases o with
    | none => exact absurd ho hr
    | some x =>
      obtain ⟨c', s', es⟩ := x
      obtain ⟨live', _, w'⟩ := hg _ _ _ rfl
      exact ⟨(c', s'), es, by show Timer.actV cb v op = _; unfold Timer.actV; rw [ho]; rfl,
        live', w'⟩

/-- **C105**, timers. -/
theorem timer_memory {cb : σ → Nat → Nat → Nat → Verif.Timer.Prog σ}
    {as : List (Act (Timer.kind cb))} (h : (Timer.rules cb).Keeps (fun _ => none) as) :
    RunsTidily (Timer.kind cb) as := Rules.runs_tidily (Timer.kind_sound cb) Timer.rules_enough h

/-- Maps: the initial capacity is at most 2^31. -/
def Map.rules [DecidableEq K] [DecidableEq C] [DecidableEq V] (k : Verif.Map.Kind K C) (v0 : V) :
    Rules (Map.kind k v0) where
  arg a := a.2.1 ≤ 2147483648
  op _ _ := True

theorem Map.rules_enough [DecidableEq K] [DecidableEq C] [DecidableEq V] {k : Verif.Map.Kind K C}
    (hz : Verif.Map.ZeroOk k) {v0 : V} :
    (Map.rules k v0).Enough (fun m : Verif.Map.Map K V => ∃ f, Verif.Map.Rep k m f) := by
  refine ⟨?_, ?_⟩
  · intro a ha
    refine ⟨_, rfl, fun x hx => ⟨_, Verif.Map.init_rep hx ha⟩⟩
  · intro v op w _
    obtain ⟨f, w⟩ := w
    obtain ⟨m', o, f', h1, _, h2⟩ := Verif.Map.step_spec (v0 := v0) w hz op
    exact ⟨m', o, h1, f', h2⟩

/-- **C105**, maps. -/
theorem map_memory [DecidableEq K] [DecidableEq C] [DecidableEq V] {k : Verif.Map.Kind K C}
    (hz : Verif.Map.ZeroOk k) {v0 : V} {as : List (Act (Map.kind k v0))}
    (h : (Map.rules k v0).Keeps (fun _ => none) as) : RunsTidily (Map.kind k v0) as :=
  Rules.runs_tidily (Map.kind_sound k v0) (Map.rules_enough hz) h

/-- Buffers: the obligations of `Verif.Buf.Allowed` and `Verif.Buf.Safe` (C36), `sc_buf_init`
succeeded, and the length of memory given to `sc_buf_wrap` is right. -/
def Buf.rules : Rules Buf.kind where
  arg a := match a with
    | .init ok cap => (Verif.Buf.init ok cap).1 = true
    | .wrap data len _ | .lend data len _ => len = data.length ∧ len < OBJ_MAX
  op b op := Verif.Buf.Allowed b op ∧ Verif.Buf.Safe b op

theorem Buf.rules_enough : Buf.rules.Enough Verif.Buf.InRange := by
  refine ⟨?_, ?_⟩
  · intro a ha
    refine ⟨_, rfl, fun x hx => ?_⟩
    cases hx
    apply Verif.Buf.Start.inRange
    cases a with
    | init ok cap => exact .init (show Verif.Buf.init ok cap = (true, _) from Prod.ext ha rfl)
    | wrap data len isData => obtain ⟨rfl, h2⟩ := ha; exact .wrap h2
    | lend data len isData => obtain ⟨rfl, h2⟩ := ha; exact .wrap h2
  · intro v op w hr
    obtain ⟨b', h1, h2⟩ := Verif.Buf.step_inRange w op hr.1 hr.2
    exact ⟨b', (), by show Res.bind _ _ = _; rw [h1]; rfl, h2⟩

/-- **C105**, buffers. -/
theorem buf_memory {as : List (Act Buf.kind)} (h : Buf.rules.Keeps (fun _ => none) as) :
    RunsTidily Buf.kind as := Rules.runs_tidily Buf.kind_sound Buf.rules_enough h

/-- The text a C string function sees at the pointer is `t`. -/
def Str.Text (p : Str.Param) (v : Option Verif.Str.S) (t : List UInt8) : Prop :=
  ∃ b, p.bytes v = .ok b ∧ CStr b 0 t

/-- Strings. Between a first `sc_str_token_begin` and `sc_str_token_end` the other functions are
not used. Arguments are C strings; the argument of `sc_str_set` may point into the string, and
the text of `sc_str_set_fmt` may depend on it, with at most `INT_MAX` characters; the string
that is appended to has at most `SC_STR_MAX` bytes; the string to be replaced is not empty, and
the loops of the model are given enough fuel. -/
def Str.rules : Rules Str.kind where
  arg a := match a with
    | .null => True
    | .create _ str => ∀ b, str = some b → ∃ t, CStr b 0 t
    | .createLen _ str len => len ≤ str.length ∧ len < W32
    | .createFmt _ _ text => ∀ t, text = some t → t.length ≤ INT_MAX
  op v op := match op with
    | .tokenBegin save delim => ∃ d, CStr delim 0 d ∧
        ∀ s, v = some s → ∃ c rem, c.length < W32 ∧ Verif.Str.At d c s save rem
    | .tokenEnd save => ∀ s, v = some s → ∃ d c rem, c.length < W32 ∧ Verif.Str.At d c s save rem
    | .len => True
    | op => (∀ s, v = some s → ∃ c, Verif.Str.Holds s c) ∧ match op with
      | .set _ param => ∀ p, param = some p → ∃ t, Str.Text p v t
      | .setFmt _ _ text => ∀ t, text v = some t → t.length ≤ INT_MAX
      | .append _ param => (param = none → v = none) ∧
          (∀ s, v = some s → s.len ≤ STR_MAX) ∧
          ∀ b, param = some b → ∃ t, CStr b 0 t ∧ t.length < W64
      | .trim _ list => ∃ l, CStr list 0 l
      | .replace _ fuel rep with_ => ∃ b b' r w, rep = some b ∧ with_ = some b' ∧ CStr b 0 r ∧
          r ≠ [] ∧ CStr b' 0 w ∧ ∀ s, v = some s → s.len < fuel
      | _ => True

/-- What holds of every variable in a program that keeps the rules. -/
def Str.I (v : Option Verif.Str.S) : Prop :=
  ∀ s, v = some s → ∃ c d save rem, c.length < W32 ∧ Verif.Str.At d c s save rem

theorem Str.I.none : Str.I none := fun _ h => by cases h

theorem Str.I.at {s : Verif.Str.S} {c d : List UInt8} {save : Option Nat} {rem : List (List UInt8)}
    (hc : c.length < W32) (h : Verif.Str.At d c s save rem) : Str.I (some s) := by
  intro s' e
  cases e
  exact ⟨c, d, save, rem, hc, h⟩

theorem Str.I.holds {s : Verif.Str.S} {c : List UInt8} (h : Verif.Str.Holds s c) :
    Str.I (some s) := by
  obtain ⟨l, b⟩ := s
  obtain ⟨h1, h2, h3⟩ := h
  simp only at h1 h2
  subst h1 h2
  exact .at h3 (.start (d := []))

theorem Str.create_I {al : Alloc UInt8} {str : Option (List UInt8)}
    (h : ∀ b, str = some b → ∃ t, CStr b 0 t) :
    ∃ r, Verif.Str.create al str = .ok r ∧ Str.I r := by
  cases str with
  | none => exact ⟨_, rfl, .none⟩
  | some b =>
    obtain ⟨t, ht⟩ := h b rfl
    obtain ⟨r, h1, h2, h3⟩ := Verif.Str.create_spec al ht
    refine ⟨r, h1, ?_⟩
    by_cases hn : al = .none ∨ t.length > STR_MAX
    · rw [h2 hn]; exact .none
    · obtain ⟨s, rfl, hs⟩ := h3 (fun e => hn (Or.inl e)) (by
        have : ¬ t.length > STR_MAX := fun e => hn (Or.inr e)
        omega)
      exact .holds hs

theorem Str.createVa_I {al : Alloc UInt8} {tmp : Nat → UInt8} {text : Option (List UInt8)}
    (h : ∀ t, text = some t → t.length ≤ INT_MAX) :
    ∃ r, Verif.Str.createVa al tmp text = .ok r ∧ Str.I r := by
  cases text with
  | none =>
    refine ⟨Option.none, ?_, .none⟩
    rw [Verif.Str.createVa, Verif.vsnprintf]
    rfl
  | some t =>
    obtain ⟨r, h1, h2, h3⟩ := Verif.Str.createVa_spec al tmp (h t rfl)
    refine ⟨r, h1, ?_⟩
    by_cases hn : al = .none
    · rw [h2 hn]; exact .none
    · obtain ⟨s, rfl, hs⟩ := h3 hn
      exact .holds hs

theorem Str.createLen_I {al : Alloc UInt8} {str : List UInt8} {off len : Nat}
    (h : off + len ≤ str.length) (hl : len < W32) :
    ∃ r, Verif.Str.createLen al str off len = .ok r ∧ Str.I r := by
  obtain ⟨r, h1, h2, h3⟩ := Verif.Str.createLen_spec al h hl
  refine ⟨r, h1, ?_⟩
  by_cases hn : al = .none
  · rw [h2 hn]; exact .none
  · obtain ⟨s, rfl, hs⟩ := h3 hn
    exact .holds hs

theorem Str.rules_enough : Str.rules.Enough Str.I where
  init a ha := by
    have key : ∃ v, Str.made a = .ok v ∧ Str.I v := by
      cases a with
      | null => exact ⟨_, rfl, .none⟩
      | create al str => exact Str.create_I ha
      | createLen al str len => exact Str.createLen_I (by simpa using ha.1) ha.2
      | createFmt al tmp text => exact Str.createVa_I ha
    obtain ⟨v, h1, h2⟩ := key
    exact ⟨some v, by show Res.bind _ _ = _; rw [h1]; rfl, fun x hx => by cases hx; exact h2⟩
  step v op hI hr := by
    show ∃ v' out, Str.step' v op = .ok (v', out) ∧ Str.I v'
    cases op with
    | len => exact ⟨v, _, rfl, hI⟩
    | tokenBegin save delim =>
      obtain ⟨d, hd, hr⟩ := hr
      cases v with
      | none => exact ⟨_, _, rfl, .none⟩
      | some s =>
        obtain ⟨c, rem, hc, ha⟩ := hr s rfl
        obtain ⟨s', save', tok, h1, h2⟩ := Verif.Str.tokenBegin_spec hd ha
        refine ⟨some s', .token save' tok, ?_, ?_⟩
        · simp only [Str.step', h1, Res.ok_bind]
        · rcases h2 with ⟨_, _, h⟩ | ⟨_, _, _, _, _, _, h⟩
          · exact .at hc h
          · exact .at hc h
    | tokenEnd save =>
      cases v with
      | none => exact ⟨_, _, rfl, .none⟩
      | some s =>
        obtain ⟨d, c, rem, hc, ha⟩ := hr s rfl
        refine ⟨some ⟨c.length, c ++ [0]⟩, .none, ?_, .at hc (.start (d := d))⟩
        simp only [Str.step', Verif.Str.tokenEnd_spec ha, Res.ok_bind]
    | set al param =>
      obtain ⟨_, hr⟩ := hr
      cases param with
      | none => exact ⟨v, .ok false, rfl, hI⟩
      | some p =>
        obtain ⟨t, b, hb, ht⟩ := hr p rfl
        obtain ⟨r, h1, h2⟩ := Str.create_I (al := al) (str := some b)
          (fun b' e => by cases e; exact ⟨t, ht⟩)
        cases r with
        | none =>
          exact ⟨v, .ok false, by simp only [Str.step', hb, Res.ok_bind, Verif.Str.set, h1], hI⟩
        | some c =>
          exact ⟨some c, .ok true,
            by simp only [Str.step', hb, Res.ok_bind, Verif.Str.set, h1], h2⟩
    | setFmt al tmp text =>
      obtain ⟨_, hr⟩ := hr
      obtain ⟨r, h1, h2⟩ := Str.createVa_I (al := al) (tmp := tmp) hr
      cases r with
      | none =>
        exact ⟨v, .ok false, by simp only [Str.step', Res.ok_bind, Verif.Str.setFmt, h1], hI⟩
      | some c =>
        exact ⟨some c, .ok true, by simp only [Str.step', Res.ok_bind, Verif.Str.setFmt, h1], h2⟩
    | append al param =>
      obtain ⟨hv, hn, hl, hp⟩ := hr
      cases v with
      | none =>
        obtain ⟨r, h1, h2⟩ := Str.create_I (al := al) (str := param)
          (fun b' e => by obtain ⟨t, ht, _⟩ := hp b' e; exact ⟨t, ht⟩)
        exact ⟨r, .ok r.isSome, by simp only [Str.step', Res.ok_bind, Verif.Str.append, h1], h2⟩
      | some s =>
        cases param with
        | none => cases hn rfl
        | some b =>
          obtain ⟨c, hc⟩ := hv s rfl
          obtain ⟨t, ht, hm⟩ := hp b rfl
          have hl := hl s rfl
          rw [hc.len] at hl
          obtain ⟨h1, h2⟩ := Verif.Str.str_append_partial al hc hl ht hm
          by_cases h : al = .none ∨ c.length + t.length > STR_MAX
          · exact ⟨some s, .ok false, by simp only [Str.step', Res.ok_bind, h2 h], hI⟩
          · obtain ⟨s', h3, h4⟩ := h1 (fun e => h (Or.inl e)) (by
              have : ¬ c.length + t.length > STR_MAX := fun e => h (Or.inr e)
              omega)
            exact ⟨some s', .ok true, by simp only [Str.step', Res.ok_bind, h3], .holds h4⟩
    | trim al list =>
      obtain ⟨hv, l, hl⟩ := hr
      cases v with
      | none => exact ⟨_, _, rfl, .none⟩
      | some s =>
        obtain ⟨c, hc⟩ := hv s rfl
        obtain ⟨ok, s', t, a, b, h1, h2, h3, h4, h5, h6, h7, h8⟩ := Verif.Str.trim_spec al hc hl
        refine ⟨some s', .ok ok, by simp only [Str.step', Res.ok_bind, h1], ?_⟩
        cases ok with
        | true => exact .holds (h7 rfl)
        | false => rw [(h8 rfl).1]; exact hI
    | substring al a b =>
      obtain ⟨hv, _⟩ := hr
      cases v with
      | none => exact ⟨_, _, rfl, .none⟩
      | some s =>
        obtain ⟨c, hc⟩ := hv s rfl
        obtain ⟨h1, h2⟩ := Verif.Str.str_substring al hc a b
        by_cases h : al = .none ∨ ¬ (a ≤ b ∧ b ≤ c.length)
        · exact ⟨some s, .ok false, by simp only [Str.step', Res.ok_bind, h2 h], hI⟩
        · have h' : al ≠ .none ∧ (a ≤ b ∧ b ≤ c.length) := by
            exact ⟨fun e => h (Or.inl e), Classical.not_not.1 (fun e => h (Or.inr e))⟩
          obtain ⟨s', h3, h4⟩ := h1 h'.1 h'.2.1 h'.2.2
          exact ⟨some s', .ok true, by simp only [Str.step', Res.ok_bind, h3], .holds h4⟩
    | replace al fuel rep with_ =>
      obtain ⟨hv, b, b', r, w, rfl, rfl, hb, hne, hb', hf⟩ := hr
      cases v with
      | none => exact ⟨_, _, rfl, .none⟩
      | some s =>
        obtain ⟨c, hc⟩ := hv s rfl
        obtain ⟨t, _, res, h1, h2, _⟩ := Verif.Str.str_replace al hc hb hb' hne
        have h1 := h1 fuel (by have := hf s rfl; rw [hc.len] at this; omega)
        refine ⟨res.2, .ok res.1, by simp only [Str.step', Res.ok_bind, h1], ?_⟩
        rcases h2 with ⟨s', rfl, h, _⟩ | rfl
        · exact .holds h
        · exact hI

/-- **C105**, strings. -/
theorem str_memory {as : List (Act Str.kind)} (h : Str.rules.Keeps (fun _ => none) as) :
    RunsTidily Str.kind as := Rules.runs_tidily Str.kind_sound Str.rules_enough h

/-- URIs: the text is a C string shorter than 2 GiB, and the strings of a URI that could be made
are read. -/
def Uri.rules : Rules Uri.kind where
  arg a := ∀ b, a.2 = some b → ∃ t, CStr b 0 t ∧ t.length < 2147483640
  op v m := v ≠ none ∧ m ∈ [Verif.Uri.Uri.str, Verif.Uri.Uri.scheme, Verif.Uri.Uri.userinfo,
    Verif.Uri.Uri.host, Verif.Uri.Uri.port, Verif.Uri.Uri.path, Verif.Uri.Uri.query,
    Verif.Uri.Uri.fragment]

theorem Uri.rules_enough : Uri.rules.Enough (fun v : Option Verif.Uri.Uri =>
    ∀ u, v = some u → ∃ c, Verif.Uri.Holds u c ∧ ∃ t, CStr u.buf u.str t) := by
  refine ⟨?_, ?_⟩
  · intro a ha
    obtain ⟨al, str⟩ := a
    cases str with
    | none => exact ⟨some none, rfl, fun x hx => by cases hx; exact fun _ h => by cases h⟩
    | some b =>
      obtain ⟨t, ht, hl⟩ := ha b rfl
      obtain ⟨r, h1, h2⟩ := Verif.Uri.uri_recompose al ht hl
      refine ⟨some r, by show Res.bind _ _ = _; rw [h1]; rfl, fun x hx => ?_⟩
      cases hx
      intro u hu
      obtain ⟨c, _, h3, h4⟩ := h2 u hu
      exact ⟨c, h3, _, h4⟩
  · intro v (m : Verif.Uri.Uri → Nat) hI hr
    obtain ⟨hn, hm⟩ := hr
    cases v with
    | none => exact absurd rfl hn
    | some u =>
      obtain ⟨c, hc, _, hs⟩ := hI u rfl
      have hm : m ∈ [_, _, _, _, _, _, _, _] := hm
      have key : ∃ t, cstr u.buf (m u) = .ok t := by
        simp only [List.mem_cons, List.not_mem_nil, or_false] at hm
        rcases hm with rfl | rfl | rfl | rfl | rfl | rfl | rfl | rfl
        · exact ⟨_, cstr_eq hs⟩
        · exact ⟨_, cstr_eq hc.scheme⟩
        · exact ⟨_, cstr_eq hc.userinfo⟩
        · exact ⟨_, cstr_eq hc.host⟩
        · exact ⟨_, cstr_eq hc.port⟩
        · exact ⟨_, cstr_eq hc.path⟩
        · exact ⟨_, cstr_eq hc.query⟩
        · exact ⟨_, cstr_eq hc.fragment⟩
      obtain ⟨t, ht⟩ := key
      exact ⟨some u, t, by show Res.bind _ _ = _; rw [ht]; rfl, hI⟩

/-- **C105**, URIs. -/
theorem uri_memory {as : List (Act Uri.kind)} (h : Uri.rules.Keeps (fun _ => none) as) :
    RunsTidily Uri.kind as := Rules.runs_tidily Uri.kind_sound Uri.rules_enough h

/-! ## Concrete programs -/

/-- Two arrays, a failed `add`, one of the arrays destroyed. -/
abbrev exArray : List (Act (Array.kind 4 Nat)) :=
  [.create 0 (), .create 1 (), .call 0 (.add 7 (some fun _ => 0)), .call 1 (.add 8 none),
    .call 1 (.add 9 (some fun _ => 0)), .call 0 .delLast, .destroy 0]

example : (Array.rules 4 Nat).Keeps (fun _ => none) exArray := by
  refine ⟨fun _ => trivial, fun vs s h => ?_⟩
  cases h
  refine ⟨fun _ => trivial, fun vs s h => ?_⟩
  cases h
  refine ⟨fun v _ => trivial, fun vs s h => ?_⟩
  cases h
  refine ⟨fun v _ => trivial, fun vs s h => ?_⟩
  cases h
  refine ⟨fun v _ => trivial, fun vs s h => ?_⟩
  cases h
  refine ⟨fun v hv => ?_, fun vs s h => ?_⟩
  · cases hv
    show (1 : Nat) ≠ 0
    decide
  cases h
  exact ⟨trivial, fun vs s h => trivial⟩

/-- The block of the destroyed array is gone, the one of the other is there. -/
example : ∃ w ss, (World.start (Array.kind 4 Nat)).run _ exArray = .ok (w, ss) ∧
    w.st.blk 0 = none ∧ w.st.blk 1 = some [9, 0, 0, 0, 0, 0, 0, 0] ∧ w.st.next = 2 :=
  ⟨_, _, rfl, rfl, rfl, rfl⟩

/-- A string set to a part of itself, then to a text that does not fit in memory. -/
abbrev exStr : List (Act Str.kind) :=
  [.create 0 (.create (some fun _ => 0) (some [104, 105, 106, 0])),
    .call 0 (.set (some fun _ => 0) (some (.self 1))), .call 0 (.set none (some (.ext [120, 0])))]

example : Str.rules.Keeps (fun _ => none) exStr := by
  refine ⟨fun _ b hb => ?_, fun vs s h => ?_⟩
  · cases hb
    exact ⟨[104, 105, 106], by decide, by decide, by decide⟩
  cases h
  refine ⟨fun v hv => ⟨fun s hs => ?_, fun p hp => ?_⟩, fun vs s h => ?_⟩
  · cases hv
    cases hs
    exact ⟨[104, 105, 106], rfl, rfl, by decide⟩
  · cases hv
    cases hp
    exact ⟨[105, 106], _, rfl, by decide, by decide, by decide⟩
  cases h
  refine ⟨fun v hv => ⟨fun s hs => ?_, fun p hp => ?_⟩, fun vs s h => trivial⟩
  · cases hv
    cases hs
    exact ⟨[105, 106], rfl, rfl, by decide⟩
  · cases hv
    cases hp
    exact ⟨[120], _, rfl, by decide, by decide, by decide⟩

example : ∃ w ss, (World.start Str.kind).run _ exStr = .ok (w, ss) ∧
    w.objs 0 = some (some 1) ∧ w.st.blk 0 = none ∧ w.st.blk 1 = some ⟨2, [105, 106, 0]⟩ :=
  ⟨_, _, rfl, rfl, rfl, rfl⟩

end Verif.Memory
