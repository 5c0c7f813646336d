import Verif.Flt.Double
import Verif.Map.Props
import Verif.Sc.Props
import Verif.Perf.Props

/-! # Where the library computes with `double` (C155, C49, C76)

The load factor of maps, the texts of sizes and the results of `sc_perf` are computed with
numbers of type `double`. The models of these functions use exact numbers. Here the computations
are done as the code has them, with every conversion and operation rounded. -/

namespace Verif.Flt

open Verif

/-! ## The load factor of maps -/

/-- `(uint32_t) (m->cap * ((double) m->load_fac / 100))`, map/sc_map.c:141 and 210: `a` and `b`
are the operands of the division, `q` its result, `c` is the capacity and `p` the product. -/
def Remap (cap lf r : Nat) : Prop :=
  ∃ a b q c p, Nearest lf a ∧ Nearest (100 : Nat) b ∧ Nearest (a / b) q ∧ Nearest cap c ∧
    Nearest (c * q) p ∧ p.floor = r

theorem natCast_le {a b : Nat} (h : a ≤ b) : (a : Rat) ≤ b := Rat.natCast_le_natCast.2 h

/-- C155. For every capacity a table can have and every load factor that is accepted, the limit
is the one the model of the map uses: all rounding is gone after the conversion to an integer. -/
theorem remap_double {k lf r : Nat} (hk : k ≤ 31) (h1 : 25 ≤ lf) (h2 : lf ≤ 95)
    (h : Remap (2 ^ k) lf r) : r = Map.remapOf (2 ^ k) lf := by
  obtain ⟨a, b, q, c, p, ha, hb, hq, hc, hp, hr⟩ := h
  have hcap : 2 ^ k ≤ 2147483648 := by
    have := Nat.pow_le_pow_right (n := 2) (by omega) hk
    omega
  have hcap1 : 1 ≤ 2 ^ k := Nat.one_le_two_pow
  unfold Map.remapOf
  generalize hN : 2 ^ k = cap at *
  have ha' := ha.nat (by omega)
  have hb' := hb.nat (by omega)
  have hc' := hc.nat (by omega)
  subst ha' hb' hc'
  have e100 : ((100 : Nat) : Rat) = 100 := rfl
  have l1 : (25 : Rat) ≤ lf := natCast_le h1
  have l2 : (lf : Rat) ≤ 95 := natCast_le h2
  have c1 : (1 : Rat) ≤ cap := natCast_le hcap1
  have c2 : (cap : Rat) ≤ 2147483648 := natCast_le hcap
  rw [e100] at hq
  by_cases hd : 100 ∣ cap * lf
  · have h25 : 25 ∣ lf := by
      have : 25 ∣ cap * lf := Nat.dvd_trans (by decide) hd
      refine Nat.Coprime.dvd_of_dvd_mul_left ?_ this
      rw [← hN]
      exact Nat.Coprime.pow_right k (by decide)
    obtain ⟨j, rfl⟩ := h25
    have hq' : q = (j : Rat) / 2 ^ 2 := by
      have hj := isDouble_nat (n := j) (k := 2) (by omega) (by omega)
      have he : ((25 * j : Nat) : Rat) / 100 = (j : Rat) / 2 ^ 2 := by
        rw [Rat.natCast_mul]
        have : ((25 : Nat) : Rat) = 25 := rfl
        grind
      rw [he] at hq
      exact hq.exact hj
    obtain ⟨d, hd⟩ := hd
    have hpd : (cap : Rat) * q = (d : Nat) := by
      have h3 : ((cap * (25 * j) : Nat) : Rat) = ((100 * d : Nat) : Rat) := by rw [hd]
      rw [Rat.natCast_mul, Rat.natCast_mul, Rat.natCast_mul] at h3
      have e25 : ((25 : Nat) : Rat) = 25 := rfl
      rw [hq']
      grind
    rw [hpd] at hp
    have hlt : d < 2 ^ 53 := by
      have : cap * (25 * j) ≤ 2147483648 * 95 := Nat.mul_le_mul hcap h2
      omega
    rw [hp.nat hlt] at hr
    have : ((d : Nat) : Rat).floor = (d : Int) := Rat.floor_intCast d
    omega
  · have hx1 : (0 : Rat) < (lf : Rat) / 100 := by grind
    have big : (1000000000000000000 : Rat) ≤ 2 ^ 200 := by decide
    have hq2 := hq.near (by
      have := Rat.mul_le_mul_of_nonneg_left big (Rat.le_of_lt hx1)
      grind) (by grind)
    have hH1 := Rat.mul_le_mul_of_nonneg_left hq2.1 (show (0 : Rat) ≤ cap by grind)
    have hH2 := Rat.mul_le_mul_of_nonneg_left hq2.2 (show (0 : Rat) ≤ cap by grind)
    have hNle : ((cap * lf : Nat) : Rat) ≤ ((2147483648 * 95 : Nat) : Rat) :=
      natCast_le (Nat.mul_le_mul hcap h2)
    have hNge : ((1 * 25 : Nat) : Rat) ≤ ((cap * lf : Nat) : Rat) :=
      natCast_le (Nat.mul_le_mul hcap1 h1)
    have hNd : ((cap * lf : Nat) : Rat) = (cap : Rat) * lf := Rat.natCast_mul _ _
    have eN1 : ((2147483648 * 95 : Nat) : Rat) = 204010946560 := rfl
    have eN2 : ((1 * 25 : Nat) : Rat) = 25 := rfl
    rw [eN1] at hNle
    rw [eN2] at hNge
    generalize hH : (cap : Rat) * q = H at *
    have hp2 := hp.near (by
      have h3 : (1 : Rat) / 8 ≤ H := by grind
      have := Rat.mul_le_mul_of_nonneg_left big (show (0 : Rat) ≤ H by grind)
      grind) (by grind)
    obtain ⟨d, ρ, hdρ, hρ1, hρ2⟩ : ∃ d ρ, cap * lf = 100 * d + ρ ∧ 1 ≤ ρ ∧ ρ ≤ 99 :=
      ⟨cap * lf / 100, cap * lf % 100, by omega, by omega, by omega⟩
    have hdR : ((cap * lf : Nat) : Rat) = 100 * (d : Rat) + ρ := by
      rw [hdρ, Rat.natCast_add, Rat.natCast_mul]; rfl
    have r1 : (1 : Rat) ≤ ρ := natCast_le hρ1
    have r2 : (ρ : Rat) ≤ 99 := natCast_le hρ2
    have hfl : p.floor = (d : Int) := by
      have f1 : (d : Int) ≤ p.floor := Rat.le_floor_iff.2 (by
        rw [show (((d : Nat) : Int) : Rat) = (d : Rat) from rfl]; grind)
      have f2 : p.floor < (d : Int) + 1 := Rat.floor_lt_iff.2 (by
        rw [Rat.intCast_add, show (((d : Nat) : Int) : Rat) = (d : Rat) from rfl,
          show ((1 : Int) : Rat) = 1 from rfl]; grind)
      omega
    omega

theorem remap_lf {K C V : Type} [DecidableEq K] [DecidableEq C] {k : Map.Kind K C} {v0 : V}
    {al : Bool} {m m' : Map.Map K V} {b : Bool} (h : Map.remap k v0 al m = .ok (m', b)) :
    m'.loadFac = m.loadFac ∧ (m'.cap = m.cap ∨ m.remap ≤ m.size) := by
  unfold Map.remap at h
  split at h
  · cases h; exact ⟨rfl, Or.inl rfl⟩
  · split at h
    · cases h; exact ⟨rfl, Or.inl rfl⟩
    · dsimp only at h
      split at h
      · cases h
      · obtain ⟨n, _, h⟩ := Res.bind_eq_ok.1 h
        cases h
        exact ⟨rfl, Or.inr (by omega)⟩

theorem put_lf {K C V : Type} [DecidableEq K] [DecidableEq C] {k : Map.Kind K C} {v0 : V}
    {al : Bool} {m m' : Map.Map K V} {key : K} {v r : V}
    (h : Map.put k v0 al m key v = .ok (m', r)) :
    m'.loadFac = m.loadFac ∧ (m'.cap = m.cap ∨ m.remap ≤ m.size) := by
  unfold Map.put at h
  dsimp only at h
  obtain ⟨⟨m1, b⟩, h1, h⟩ := Res.bind_eq_ok.1 h
  have hm := remap_lf h1
  dsimp only at h hm
  split at h
  · cases h; exact hm
  · split at h
    · cases h; exact hm
    · obtain ⟨_, _, h⟩ := Res.bind_eq_ok.1 h
      obtain ⟨_, _, h⟩ := Res.bind_eq_ok.1 h
      obtain ⟨_, _, h⟩ := Res.bind_eq_ok.1 h
      cases h; exact hm

theorem step_lf {K C V : Type} [DecidableEq K] [DecidableEq C] {k : Map.Kind K C} {v0 : V}
    {m m' : Map.Map K V} {op : Map.Op K V} {o : Map.Out V}
    (h : Map.step k v0 m op = .ok (m', o)) : m'.loadFac = m.loadFac := by
  cases op with
  | put key v al =>
    obtain ⟨⟨m1, r⟩, h1, h⟩ := Res.bind_eq_ok.1 h
    cases h; exact (put_lf h1).1
  | get key =>
    obtain ⟨⟨m1, r⟩, h1, h⟩ := Res.bind_eq_ok.1 h
    cases h
    unfold Map.get at h1
    dsimp only at h1
    split at h1
    · cases h1; rfl
    · obtain ⟨_, _, h1⟩ := Res.bind_eq_ok.1 h1
      obtain ⟨_, _, h1⟩ := Res.bind_eq_ok.1 h1
      split at h1 <;> cases h1 <;> rfl
  | del key =>
    obtain ⟨⟨m1, r⟩, h1, h⟩ := Res.bind_eq_ok.1 h
    cases h
    unfold Map.del at h1
    dsimp only at h1
    split at h1
    · cases h1; rfl
    · obtain ⟨_, _, h1⟩ := Res.bind_eq_ok.1 h1
      obtain ⟨_, _, h1⟩ := Res.bind_eq_ok.1 h1
      split at h1
      · cases h1; rfl
      · obtain ⟨_, _, h1⟩ := Res.bind_eq_ok.1 h1
        obtain ⟨_, _, h1⟩ := Res.bind_eq_ok.1 h1
        cases h1; rfl
  | clear =>
    cases h
    unfold Map.clear
    split <;> rfl

theorem run_lf {K C V : Type} [DecidableEq K] [DecidableEq C] {k : Map.Kind K C} {v0 : V} :
    ∀ {ops : List (Map.Op K V)} {m m' : Map.Map K V} {outs : List (Map.Out V)},
      Map.run k v0 m ops = .ok (m', outs) → m'.loadFac = m.loadFac := by
  intro ops
  induction ops with
  | nil => intro m m' outs h; cases h; rfl
  | cons op ops ih =>
    intro m m' outs h
    obtain ⟨⟨m1, o⟩, h1, h⟩ := Res.bind_eq_ok.1 h
    obtain ⟨⟨m2, os⟩, h2, h⟩ := Res.bind_eq_ok.1 h
    cases h
    rw [ih h2, step_lf h1]

/-- C155. After every history of a map with the load factor `lf` in percent (75 for 0), at most
`lf` percent of the cells are taken by entries, and a put enlarges the table only if one entry
more would be more than that. -/
theorem load_factor {K C V : Type} [DecidableEq K] [DecidableEq C] {k : Map.Kind K C} {v0 : V}
    (hz : Map.ZeroOk k) {al : Bool} {g : Bool × Bool} {cap lf : Nat} {m m' : Map.Map K V}
    (hcap : cap ≤ 2147483648) (hi : Map.init k v0 al g cap lf = some m)
    {ops : List (Map.Op K V)} {outs : List (Map.Out V)}
    (hr : Map.run k v0 m ops = .ok (m', outs)) :
    100 * m'.size ≤ (if lf = 0 then 75 else lf) * m'.cap ∧
    ∀ key v al' m'' r, Map.put k v0 al' m' key v = .ok (m'', r) → m''.cap ≠ m'.cap →
      (m'.static = true ∧ m'.size = 0) ∨
      (if lf = 0 then 75 else lf) * m'.cap < 100 * (m'.size + 1) := by
  obtain ⟨m1, outs1, f, h1, h2, h3⟩ := Map.run_spec (v0 := v0) hz ops (Map.init_rep hi hcap)
  rw [hr] at h1; cases h1
  have hlf : m'.loadFac = if lf = 0 then 75 else lf := by
    rw [run_lf hr]
    clear hr h3
    unfold Map.init at hi
    dsimp only at hi
    generalize (if lf = 0 then 75 else lf) = L at hi ⊢
    split at hi
    · cases hi
    · split at hi
      · cases hi; rfl
      · split at hi
        · cases hi
        · cases hi; rfl
  rw [← hlf]
  have hb := h3.bound
  refine ⟨?_, ?_⟩
  · rcases h3.shape with ⟨_, _, hre⟩ | ⟨_, _, hre⟩
    · rw [hre] at hb; omega
    · rw [hre] at hb
      unfold Map.remapOf at hb
      rw [Nat.mul_comm m'.loadFac]
      omega
  · intro key v al' m'' r hp hc
    rcases (put_lf hp).2 with he | he
    · exact absurd he hc
    · rcases h3.shape with ⟨hs, _, hre⟩ | ⟨_, _, hre⟩
      · rw [hre] at hb; exact Or.inl ⟨hs, by omega⟩
      · rw [hre] at he
        unfold Map.remapOf at he
        rw [Nat.mul_comm m'.loadFac]
        exact Or.inr (by omega)

/-! ## The texts of sizes -/

/-- C49. `(double) count / 1024`, sc/sc.c:120, is exact, as the model of `sc_bytes_to_size` has
it: no rounding happens before `printf`. -/
theorem size_double {val : Nat} (h : val < W64) {a b q : Rat}
    (ha : Nearest (val >>> (10 * Sc.unitLoop val 4) : Nat) a) (hb : Nearest (1024 : Nat) b)
    (hq : Nearest (a / b) q) : q = ((val >>> (10 * Sc.unitLoop val 4) : Nat) : Rat) / 1024 := by
  have hc := Sc.count_exact h
  rw [ha.nat hc, hb.nat (by omega)] at hq
  exact hq.exact (isDouble_nat (k := 10) hc (by omega))

/-! ## The results of `sc_perf` -/

/-- What `sc_read`, perf/sc_perf.c:120-133, stores for an event that was counted `v` times, when
the counter was enabled for `e` and running for `r` nanoseconds; `value` is 0 before. -/
def Value (v e r : Nat) (s : Rat) : Prop :=
  ∃ n dv p, (if e > 0 ∧ r > 0 then ∃ dr de, Nearest r dr ∧ Nearest e de ∧ Nearest (dr / de) n else n = 1) ∧
    Nearest v dv ∧ Nearest (dv * n) p ∧ Nearest (0 + p) s

theorem Nearest.u64 {n : Nat} {y : Rat} (h : Nearest n y) (hn : n < 2 ^ 64) :
    y ≤ n + (n : Rat) / 9007199254740992 ∧ (n : Rat) ≤ y + (n : Rat) / 9007199254740992 := by
  by_cases h0 : n = 0
  · subst h0
    have := h.nat (by omega)
    subst this
    have e0 : ((0 : Nat) : Rat) = 0 := rfl
    rw [e0]
    constructor <;> grind
  · have h1 : (1 : Rat) ≤ n := natCast_le (show 1 ≤ n by omega)
    have h2 : (n : Rat) ≤ ((2 ^ 64 : Nat) : Rat) := natCast_le (by omega)
    have big : ((2 ^ 64 : Nat) : Rat) ≤ 2 ^ 200 := by decide
    have one : (1 : Rat) ≤ 2 ^ 200 := by decide
    refine h.near ?_ (Rat.le_trans h2 big)
    have := Rat.mul_le_mul_of_nonneg_right h1 (Rat.le_of_lt (two_pow_pos 200))
    generalize (2 : Rat) ^ 200 = B at *
    grind

theorem mul_bounds {x y a b : Rat} (hx : 0 ≤ x) (hxa : x ≤ a) (hy : 0 ≤ y) (hyb : y ≤ b) :
    x * y ≤ a * b := by
  have h1 := Rat.mul_le_mul_of_nonneg_right hxa hy
  have h2 := Rat.mul_le_mul_of_nonneg_left hyb (show (0 : Rat) ≤ a by grind)
  exact Rat.le_trans h1 h2

theorem share_near {r e : Nat} (hr : 0 < r) (he : 0 < e) (hr2 : r < 2 ^ 64) (he2 : e < 2 ^ 64)
    {dr de n : Rat} (h1 : Nearest r dr) (h2 : Nearest e de) (h3 : Nearest (dr / de) n) :
    n * e ≤ r * (1 + 5 / 9007199254740992) ∧ r * (1 - 5 / 9007199254740992) ≤ n * e := by
  have a1 : (1 : Rat) ≤ r := natCast_le (show 1 ≤ r by omega)
  have a2 : (1 : Rat) ≤ e := natCast_le (show 1 ≤ e by omega)
  have a3 : (r : Rat) ≤ ((2 ^ 64 : Nat) : Rat) := natCast_le (by omega)
  have a4 : (e : Rat) ≤ ((2 ^ 64 : Nat) : Rat) := natCast_le (by omega)
  have e64 : ((2 ^ 64 : Nat) : Rat) = 18446744073709551616 := rfl
  rw [e64] at a3 a4
  have b1 := h1.u64 hr2
  have b2 := h2.u64 he2
  have hde : (0 : Rat) < de := by grind
  have hq : dr / de * de = dr := Rat.div_mul_cancel (by grind)
  generalize dr / de = q at h3 hq
  have hq0 : 0 ≤ q := by
    apply Rat.not_lt.1
    intro hlt
    have := Rat.mul_lt_mul_of_pos_right hlt hde
    grind
  -- the quotient
  have c1 : q * e ≤ r * (1 + 3 / 9007199254740992) := by
    have hle : (e : Rat) * (1 - 1 / 9007199254740992) ≤ de := by grind
    have := Rat.mul_le_mul_of_nonneg_left hle hq0
    grind
  have c2 : r * (1 - 3 / 9007199254740992) ≤ q * e := by
    have hle : de ≤ (e : Rat) * (1 + 1 / 9007199254740992) := by grind
    have := Rat.mul_le_mul_of_nonneg_left hle hq0
    grind
  have big : (18446744073709551616 * 4 : Rat) ≤ 2 ^ 200 := by decide +kernel
  have h4 := h3.near (by
    have h5 := Rat.mul_le_mul_of_nonneg_left big hq0
    have h6 := Rat.mul_le_mul_of_nonneg_left a4 hq0
    grind) (by
    have h6 := Rat.mul_le_mul_of_nonneg_left a2 hq0
    grind)
  have h5 := Rat.mul_le_mul_of_nonneg_right h4.1 (show (0 : Rat) ≤ e by grind)
  have h6 := Rat.mul_le_mul_of_nonneg_right h4.2 (show (0 : Rat) ≤ e by grind)
  constructor <;> grind

theorem product_near {v : Nat} (hv : v < 2 ^ 64) {n dv p x : Rat} (hx : 0 < x) (h1 : Nearest v dv)
    (h2 : Nearest (dv * n) p) (hx1 : x * (1 - 5 / 9007199254740992) ≤ n) (hx2 : n ≤ x * (1 + 5 / 9007199254740992))
    (hlo : 1 / 18446744073709551616 ≤ x) (hhi : x ≤ 18446744073709551616) :
    dist (v * x) p ≤ v * x / 2 ^ 50 := by
  have e50 : (2 : Rat) ^ 50 = 1125899906842624 := by decide
  rw [e50]
  by_cases h0 : v = 0
  · subst h0
    have hd := h1.nat (by omega)
    rw [hd] at h2
    have e0 : ((0 : Nat) : Rat) * n = ((0 : Nat) : Rat) := by
      rw [show ((0 : Nat) : Rat) = 0 from rfl]; grind
    rw [e0] at h2
    rw [h2.nat (by omega), show ((0 : Nat) : Rat) = 0 from rfl]
    rw [dist_le]
    constructor <;> grind
  · have a1 : (1 : Rat) ≤ v := natCast_le (show 1 ≤ v by omega)
    have a3 : (v : Rat) ≤ ((2 ^ 64 : Nat) : Rat) := natCast_le (by omega)
    have e64 : ((2 ^ 64 : Nat) : Rat) = 18446744073709551616 := rfl
    rw [e64] at a3
    have b1 := h1.u64 hv
    have hn0 : 0 ≤ n := by grind
    have d1 : dv * n ≤ v * (1 + 1 / 9007199254740992) * (x * (1 + 5 / 9007199254740992)) :=
      mul_bounds (by grind) (by grind) hn0 hx2
    have d2 : v * (1 - 1 / 9007199254740992) * (x * (1 - 5 / 9007199254740992)) ≤ dv * n :=
      mul_bounds (by grind) (by grind) (by grind) hx1
    have vx1 : 1 * (1 / 18446744073709551616) ≤ (v : Rat) * x := mul_bounds (by grind) a1 (by grind) hlo
    have vx2 : (v : Rat) * x ≤ 18446744073709551616 * 18446744073709551616 :=
      mul_bounds (by grind) a3 (by grind) hhi
    generalize hw : (v : Rat) * x = w at *
    have d1' : dv * n ≤ w * ((1 + 1 / 9007199254740992) * (1 + 5 / 9007199254740992)) := by grind
    have d2' : w * ((1 - 1 / 9007199254740992) * (1 - 5 / 9007199254740992)) ≤ dv * n := by grind
    generalize dv * n = H at *
    have big : (18446744073709551616 * 18446744073709551616 * 4 : Rat) ≤ 2 ^ 200 := by decide +kernel
    have h4 := h2.near (by
      have h5 := Rat.mul_le_mul_of_nonneg_left big (show 0 ≤ H by grind)
      grind) (by grind)
    rw [dist_le]
    constructor <;> grind

/-- C76. What is reported of an event differs from the exact value, with which
`Verif.Perf.times_partial` is stated, by less than one part in 2^50, for all counts and times
that the system can tell. -/
theorem value_double {v e r : Nat} (hv : v < 2 ^ 64) (he : e < 2 ^ 64) (hr : r < 2 ^ 64) {s : Rat}
    (h : Value v e r s) : dist (Perf.scaled ⟨v, e, r⟩) s ≤ Perf.scaled ⟨v, e, r⟩ / 2 ^ 50 := by
  obtain ⟨n, dv, p, hn, hdv, hp, hs⟩ := h
  have hsp : s = p := by
    rw [show 0 + p = p by grind] at hs
    exact hs.exact hp.1
  subst hsp
  unfold Perf.scaled
  dsimp only
  by_cases hpos : e > 0 ∧ r > 0
  · rw [if_pos hpos] at hn ⊢
    obtain ⟨dr, de, h1, h2, h3⟩ := hn
    obtain ⟨b1, b2⟩ := share_near hpos.2 hpos.1 hr he h1 h2 h3
    have a1 : (1 : Rat) ≤ r := natCast_le (show 1 ≤ r by omega)
    have a2 : (1 : Rat) ≤ e := natCast_le (show 1 ≤ e by omega)
    have a3 : (r : Rat) ≤ ((2 ^ 64 : Nat) : Rat) := natCast_le (by omega)
    have a4 : (e : Rat) ≤ ((2 ^ 64 : Nat) : Rat) := natCast_le (by omega)
    have e64 : ((2 ^ 64 : Nat) : Rat) = 18446744073709551616 := rfl
    rw [e64] at a3 a4
    have hx : (r : Rat) / e * e = r := Rat.div_mul_cancel (by grind)
    generalize (r : Rat) / e = x at hx ⊢
    have hepos : (0 : Rat) < e := by grind
    have hx0 : 0 < x := by
      apply Rat.not_le.1
      intro hle
      have := Rat.mul_le_mul_of_nonneg_right hle (Rat.le_of_lt hepos)
      grind
    refine product_near hv hx0 hdv hp ?_ ?_ ?_ ?_
    · apply Rat.le_of_mul_le_mul_right _ hepos
      grind
    · apply Rat.le_of_mul_le_mul_right _ hepos
      grind
    · have := Rat.mul_le_mul_of_nonneg_left a4 (Rat.le_of_lt hx0)
      grind
    · have := Rat.mul_le_mul_of_nonneg_left a2 (Rat.le_of_lt hx0)
      grind
  · rw [if_neg hpos] at hn ⊢
    subst hn
    exact product_near hv (by decide) hdv hp (by grind) (by grind) (by grind) (by grind)

/-- C76. An event that was counted all the time, less than 2^53 times in less than 2^53
nanoseconds (104 days), is reported exactly. -/
theorem value_exact {v e : Nat} (hv : v < 2 ^ 53) (he : e < 2 ^ 53) {s : Rat} (h : Value v e e s) :
    s = v := by
  obtain ⟨n, dv, p, hn, hdv, hp, hs⟩ := h
  have hsp : s = p := by
    rw [show 0 + p = p by grind] at hs
    exact hs.exact hp.1
  have h1 : n = 1 := by
    split at hn
    · next hpos =>
      obtain ⟨dr, de, h1, h2, h3⟩ := hn
      rw [h1.nat he, h2.nat he] at h3
      have a2 : (1 : Rat) ≤ e := natCast_le (show 1 ≤ e by omega)
      have hx : (e : Rat) / e = ((1 : Nat) : Rat) := by
        rw [show ((1 : Nat) : Rat) = 1 from rfl]; grind
      rw [hx] at h3
      exact h3.nat (by omega)
    · exact hn
  rw [h1, hdv.nat hv, Rat.mul_one] at hp
  rw [hsp, hp.nat hv]

/-! ## Concrete cases -/

theorem nearest_self {x : Rat} (h : IsDouble x) : Nearest x x := by
  refine ⟨h, fun z _ => ?_⟩
  rw [dist_self]
  unfold dist; grind

theorem nearest_nat {n : Nat} (hn : n < 2 ^ 53) : Nearest n n := by
  refine nearest_self ?_
  have := isDouble_nat (k := 0) hn (by omega)
  rwa [show (n : Rat) / 2 ^ 0 = n by rw [show (2 : Rat) ^ 0 = 1 by simp]; grind] at this

/-- The computation has a result for every capacity and load factor, so `remap_double` is about
something: 95 percent of 2^31 cells, where both the quotient and the product are rounded. -/
example : ∃ r, Remap (2 ^ 31) 95 r ∧ r = 2040109465 := by
  have ha := nearest_nat (n := 95) (by decide)
  have hb := nearest_nat (n := 100) (by decide)
  have hc := nearest_nat (n := 2 ^ 31) (by decide)
  obtain ⟨q, hq, hq2⟩ := exists_nearest (x := ((95 : Nat) : Rat) / ((100 : Nat) : Rat))
    (by decide +kernel) (by decide +kernel)
  rw [dist_le] at hq2
  have e1 : ((95 : Nat) : Rat) / ((100 : Nat) : Rat) = 95 / 100 := rfl
  have e2 : ((2 ^ 31 : Nat) : Rat) = 2147483648 := rfl
  have big : (1 : Rat) ≤ 2 ^ 1022 := by decide +kernel
  have big2 : (4294967296 : Rat) * 2 ^ 1022 < 2 ^ 2045 := by decide +kernel
  have hpos : (0 : Rat) < 2 ^ 1022 := two_pow_pos _
  rw [e1] at hq2
  have q1 : (1 : Rat) ≤ 2147483648 * q := by grind
  have q2 : 2147483648 * q ≤ 4294967296 := by grind
  obtain ⟨p, hp, hp2⟩ := exists_nearest (x := ((2 ^ 31 : Nat) : Rat) * q)
    (by
      rw [e2]
      have := Rat.mul_le_mul_of_nonneg_right q1 (Rat.le_of_lt hpos)
      generalize (2 : Rat) ^ 1022 = B at *
      grind)
    (by
      rw [e2]
      have := Rat.mul_le_mul_of_nonneg_right q2 (Rat.le_of_lt hpos)
      generalize (2 : Rat) ^ 1022 = B at *
      generalize (2 : Rat) ^ 2045 = B' at *
      grind)
  rw [e2, dist_le] at hp2
  have h0 : 0 ≤ p.floor := Rat.le_floor_iff.2 (by
    rw [show ((0 : Int) : Rat) = 0 from rfl]; grind)
  have hr : Remap (2 ^ 31) 95 p.floor.toNat :=
    ⟨_, _, q, _, p, ha, hb, hq, hc, hp, by omega⟩
  exact ⟨_, hr, remap_double (k := 31) (by omega) (by omega) (by omega) hr⟩

/-- One event of three is counted: 1/3 is rounded. -/
example : (Perf.scaled ⟨3, 3, 1⟩) = 1 := by decide +kernel

/-- Counted 5 times in 7 of 7 nanoseconds. -/
example : Value 5 7 7 5 := by
  have h5 := nearest_nat (n := 5) (by decide)
  have h7 := nearest_nat (n := 7) (by decide)
  have h1 := nearest_nat (n := 1) (by decide)
  refine ⟨1, 5, 5, ?_, h5, ?_, ?_⟩
  · rw [if_pos (by decide)]
    exact ⟨7, 7, h7, h7, by rw [show (7 : Rat) / 7 = 1 by decide +kernel]; exact h1⟩
  · rw [Rat.mul_one]; exact h5
  · rw [Rat.zero_add]; exact h5

/-- A map with a load factor of 25 percent has two entries in eight cells, and a third makes
it larger. -/
example : (Map.run Map.u32Kind 0 ((Map.init Map.u32Kind 0 true (false, false) 8 25).getD
    (Map.emptyMap Map.u32Kind 0)) [.put 1 1 true, .put 2 2 true]).bind
      (fun r => .ok (r.1.cap, r.1.size)) = .ok (8, 2) := by decide

example : (Map.run Map.u32Kind 0 ((Map.init Map.u32Kind 0 true (false, false) 8 25).getD
    (Map.emptyMap Map.u32Kind 0)) [.put 1 1 true, .put 2 2 true, .put 3 3 true]).bind
      (fun r => .ok (r.1.cap, r.1.size)) = .ok (16, 3) := by decide

end Verif.Flt
