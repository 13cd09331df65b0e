import Verif.Fw.AuxPort
import Mathlib.Data.Nat.Bitwise
import Mathlib.Data.List.GetD
import Mathlib.Tactic.IntervalCases

/-!
# Analog inputs of the auxiliary ports

Model of `AuxADC` (`fw/aux_adc.h`): the sequence registers that it sets up from
the analog pins of both ports, and where it stores what was converted.

Property C92.
-/

namespace Verif.Fw.Adc

/-! ## Model -/

/-- A pin: the port and its number there. -/
abbrev Pin := Fin 2 × Fin 5

/-- `aux_info[].config`: converter and channel of each pin, `none` for
`adc_num < 0`. -/
abbrev Cfg := Pin → Option (ℕ × ℕ)

/-- Bit positions of the fields JSQ1 to JSQ4 of the register JSQR (STM32G4);
aux_adc.h:108-112. -/
def pos : ℕ → ℕ
  | 0 => 9
  | 1 => 15
  | 2 => 21
  | 3 => 27
  | _ => 0

/-- One converter: the register JSQR and `result_store`; `num_channels` is the
length. -/
structure Conv where
  jsqr : ℕ := 0
  store : List Pin := []

/-- The order in which the pins are looked at (aux_adc.h:125-126). -/
def pinOrder : List Pin := (List.finRange 2).flatMap fun p => (List.finRange 5).map fun i => (p, i)

/-- aux_adc.h:96-122, one pin; `none` is `mbed_die`. -/
def addPin (cfg : Cfg) (s : ℕ → Conv) (x : Pin) : Option (ℕ → Conv) :=
  match cfg x with
  | none => some s
  | some (a, ch) =>
    if 3 ≤ a then none
    else
      if 4 < (s a).store.length + 1 then none
      else some (Function.update s a
        { jsqr := (s a).jsqr ||| (ch <<< pos (s a).store.length), store := (s a).store ++ [x] })

/-- aux_adc.h:130-133: the length of the sequence, `(num_channels - 1) & 3`. -/
def setLength (c : Conv) : Conv := { c with jsqr := c.jsqr ||| ((c.store.length + 3) % 4) }

/-- aux_adc.h:78-137, `UpdateConfig`: the converters afterwards; all values are
zero. -/
def updateConfig (cfg : Cfg) : Option (ℕ → Conv) :=
  (pinOrder.foldlM (addPin cfg) fun _ => {}).map fun s a => setLength (s a)

/-- The hardware: where the four fields of JSQR begin (RM0440, 21.7.13). -/
def field (j : ℕ) : ℕ := 9 + 6 * j

/-- The hardware: the register JDR of index `j` after a conversion.  A
sequence of `JL + 1` conversions is done if it was started; `volt a ch` is what
converter `a` reads at channel `ch`, `old` is what the register held before. -/
def jdr (volt : ℕ → ℕ → ℕ) (old : ℕ → ℕ → ℕ) (a : ℕ) (c : Conv) (j : ℕ) : ℕ :=
  if c.store.length ≠ 0 ∧ j ≤ c.jsqr % 4 then volt a ((c.jsqr >>> field j) % 32) else old a j

/-- aux_adc.h:53-75, `ISR_StartSample` and `ISR_EndSample`: what is stored where,
in this order.  `any_adc_` is whether there is any channel. -/
def stores (volt old : ℕ → ℕ → ℕ) (s : ℕ → Conv) : List (Pin × ℕ) :=
  (List.range 3).flatMap fun a =>
    (s a).store.zipIdx.map fun xj => (xj.1, jdr volt old a (s a) xj.2)

def isrSample (volt old : ℕ → ℕ → ℕ) (s : ℕ → Conv) (value : Pin → ℕ) : Pin → ℕ :=
  (stores volt old s).foldl (fun v w => Function.update v w.1 w.2) value

/-! ## Proof -/

/-- The register with these channels in the fields from `k` on. -/
def packFrom (k : ℕ) : List ℕ → ℕ
  | [] => 0
  | c :: cs => (c <<< pos k) ||| packFrom (k + 1) cs

theorem packFrom_snoc (l : List ℕ) (c : ℕ) : ∀ k,
    packFrom k (l ++ [c]) = packFrom k l ||| (c <<< pos (k + l.length)) := by
  induction l with
  | nil => intro k; simp [packFrom]
  | cons d l ih =>
    intro k
    simp only [List.cons_append, packFrom, ih, List.length_cons, Nat.lor_assoc]
    rw [show k + 1 + l.length = k + (l.length + 1) by omega]

theorem field_bit (ch k n : ℕ) (h : ch < 32) :
    (ch <<< pos k).testBit n = (decide (pos k ≤ n) && decide (n < pos k + 5) &&
      ch.testBit (n - pos k)) := by
  rw [Nat.testBit_shiftLeft]
  by_cases h1 : pos k ≤ n
  · by_cases h2 : n < pos k + 5
    · simp [h1, h2]
    · have : ch.testBit (n - pos k) = false := by
        apply Nat.testBit_lt_two_pow
        refine lt_of_lt_of_le h ?_
        calc 32 = 2 ^ 5 := by norm_num
          _ ≤ 2 ^ (n - pos k) := Nat.pow_le_pow_right (by norm_num) (by omega)
      simp [h2, this]
  · simp [h1]

theorem packFrom_bit (l : List ℕ) : ∀ k n, (∀ c ∈ l, c < 32) → k + l.length ≤ 4 →
    (packFrom k l).testBit n = true →
      ∃ j, ∃ h : j < l.length, pos (k + j) ≤ n ∧ n < pos (k + j) + 5 ∧
        (l[j]).testBit (n - pos (k + j)) = true := by
  induction l with
  | nil => intro k n _ _ h; simp [packFrom] at h
  | cons c l ih =>
    intro k n hc hl h
    simp only [packFrom, Nat.testBit_lor, Bool.or_eq_true] at h
    rcases h with h | h
    · rw [field_bit _ _ _ (hc c (by simp))] at h
      simp only [Bool.and_eq_true, decide_eq_true_eq] at h
      exact ⟨0, by simp, by simpa using h.1.1, by simpa using h.1.2, by simpa using h.2⟩
    · obtain ⟨j, hj, a, b, d⟩ := ih (k + 1) n (fun x hx => hc x (by simp [hx]))
        (by simp only [List.length_cons] at hl; omega) h
      have e : k + 1 + j = k + (j + 1) := by omega
      rw [e] at a b d
      exact ⟨j + 1, by simpa using hj, a, b, by simpa using d⟩

theorem packFrom_bit' (l : List ℕ) : ∀ k j n, (h : j < l.length) → (∀ c ∈ l, c < 32) →
    pos (k + j) ≤ n → n < pos (k + j) + 5 → (l[j]).testBit (n - pos (k + j)) = true →
    (packFrom k l).testBit n = true := by
  induction l with
  | nil => intro k j n h; simp at h
  | cons c l ih =>
    intro k j n h hc a b d
    simp only [packFrom, Nat.testBit_lor, Bool.or_eq_true]
    cases j with
    | zero =>
      left
      rw [field_bit _ _ _ (hc c (by simp))]
      simp only [Nat.add_zero] at a b d
      simp [a, b]
      simpa using d
    | succ j =>
      right
      have e : k + 1 + j = k + (j + 1) := by omega
      exact ih (k + 1) j n (by simpa using h) (fun x hx => hc x (by simp [hx]))
        (by rw [e]; exact a) (by rw [e]; exact b) (by rw [e]; simpa using d)

/-- The fields do not overlap. -/
theorem pos_apart {j k n : ℕ} (hj : j < 4) (hk : k < 4) (h1 : pos j ≤ n) (h2 : n < pos j + 5)
    (h3 : pos k ≤ n) (h4 : n < pos k + 5) : j = k := by
  interval_cases j <;> interval_cases k <;> simp [pos] at * <;> omega

theorem pos_field {j : ℕ} (hj : j < 4) : pos j = field j := by
  interval_cases j <;> rfl

theorem pos_ge {j : ℕ} (hj : j < 4) : 9 ≤ pos j := by
  interval_cases j <;> simp [pos]

theorem small_bit {q n : ℕ} (hq : q < 4) (hn : 2 ≤ n) : q.testBit n = false := by
  apply Nat.testBit_lt_two_pow
  refine lt_of_lt_of_le hq ?_
  calc 4 = 2 ^ 2 := by norm_num
    _ ≤ 2 ^ n := Nat.pow_le_pow_right (by norm_num) hn

theorem pack_field (l : List ℕ) (hc : ∀ c ∈ l, c < 32) (hl : l.length ≤ 4) (q : ℕ) (hq : q < 4)
    (j : ℕ) (hj : j < l.length) :
    ((packFrom 0 l ||| q) >>> pos j) % 32 = l[j] := by
  rw [show (32 : ℕ) = 2 ^ 5 by norm_num]
  apply Nat.eq_of_testBit_eq
  intro i
  rw [Nat.testBit_mod_two_pow, Nat.testBit_shiftRight, Nat.testBit_lor,
    small_bit hq (by have := pos_ge (show j < 4 by omega); omega), Bool.or_false]
  by_cases hi : i < 5
  · simp only [hi, decide_true, Bool.true_and]
    rw [Bool.eq_iff_iff]
    constructor
    · intro h
      obtain ⟨k, hk, a, b, d⟩ := packFrom_bit l 0 _ hc (by omega) h
      simp only [Nat.zero_add] at a b d
      have : j = k := pos_apart (by omega) (by omega) (by omega) (by omega) a b
      subst this
      simpa using d
    · intro h
      refine packFrom_bit' l 0 j _ hj hc ?_ ?_ ?_
      · simp
      · simp; omega
      · simpa using h
  · have : l[j].testBit i = false := by
      apply Nat.testBit_lt_two_pow
      refine lt_of_lt_of_le (hc _ (List.getElem_mem hj)) ?_
      calc 32 = 2 ^ 5 := by norm_num
        _ ≤ 2 ^ i := Nat.pow_le_pow_right (by norm_num) (by omega)
    simp [hi, this]

theorem pack_length (l : List ℕ) (hc : ∀ c ∈ l, c < 32) (hl : l.length ≤ 4) (q : ℕ) (hq : q < 4) :
    (packFrom 0 l ||| q) % 4 = q := by
  rw [show (4 : ℕ) = 2 ^ 2 by norm_num]
  apply Nat.eq_of_testBit_eq
  intro i
  rw [Nat.testBit_mod_two_pow, Nat.testBit_lor]
  by_cases hi : i < 2
  · have : (packFrom 0 l).testBit i = false := by
      by_contra h
      obtain ⟨k, hk, a, b, d⟩ := packFrom_bit l 0 _ hc (by omega) (by simpa using h)
      have := pos_ge (show 0 + k < 4 by omega)
      omega
    simp [hi, this]
  · simp [hi, small_bit hq (by omega : 2 ≤ i)]

/-- The pins of a converter. -/
def pinsOn (cfg : Cfg) (a : ℕ) (l : List Pin) : List Pin :=
  l.filter fun x => decide ((cfg x).map Prod.fst = some a)

/-- The channel of a pin. -/
def chan (cfg : Cfg) (x : Pin) : ℕ := ((cfg x).map Prod.snd).getD 0

/-- What the converters hold after the pins `l` were looked at. -/
def Holds (cfg : Cfg) (l : List Pin) (s : ℕ → Conv) : Prop :=
  ∀ a, (s a).store = pinsOn cfg a l ∧ (s a).jsqr = packFrom 0 ((pinsOn cfg a l).map (chan cfg))

theorem holds_step {cfg l s x} (h : Holds cfg l s) (ha : ∀ a ch, cfg x = some (a, ch) → a < 3)
    (hn : ∀ a, (pinsOn cfg a (l ++ [x])).length ≤ 4) :
    ∃ s', addPin cfg s x = some s' ∧ Holds cfg (l ++ [x]) s' := by
  unfold addPin
  cases hx : cfg x with
  | none =>
    refine ⟨s, rfl, fun a => ?_⟩
    have : pinsOn cfg a (l ++ [x]) = pinsOn cfg a l := by simp [pinsOn, hx]
    rw [this]
    exact h a
  | some ac =>
    obtain ⟨a, ch⟩ := ac
    have h3 := ha a ch hx
    have ea : pinsOn cfg a (l ++ [x]) = pinsOn cfg a l ++ [x] := by simp [pinsOn, hx]
    have hl := hn a
    rw [ea, List.length_append, List.length_singleton] at hl
    simp only
    rw [if_neg (by omega), if_neg (by rw [(h a).1]; omega)]
    refine ⟨_, rfl, fun b => ?_⟩
    by_cases hb : b = a
    · subst hb
      rw [Function.update_self]
      simp only
      rw [(h b).1, (h b).2, ea]
      refine ⟨rfl, ?_⟩
      rw [List.map_append, List.map_singleton, packFrom_snoc]
      simp [chan, hx]
    · rw [Function.update_of_ne hb]
      have : pinsOn cfg b (l ++ [x]) = pinsOn cfg b l := by
        simp [pinsOn, hx, Ne.symm hb]
      rw [this]
      exact h b

theorem holds_fold {cfg} (ha : ∀ x a ch, cfg x = some (a, ch) → a < 3) (r : List Pin) :
    ∀ {l s}, Holds cfg l s → (∀ a, (pinsOn cfg a (l ++ r)).length ≤ 4) →
      ∃ s', r.foldlM (addPin cfg) s = some s' ∧ Holds cfg (l ++ r) s' := by
  induction r with
  | nil => intro l s h _; exact ⟨s, rfl, by simpa using h⟩
  | cons x r ih =>
    intro l s h hn
    obtain ⟨m, e1, h1⟩ := holds_step (x := x) h (ha x) (fun a => by
      have := hn a
      rw [show l ++ x :: r = (l ++ [x]) ++ r by simp] at this
      unfold pinsOn at *
      rw [List.filter_append, List.length_append] at this
      omega)
    obtain ⟨s', e2, h2⟩ := ih h1 (fun a => by
      have := hn a
      rwa [show l ++ x :: r = (l ++ [x]) ++ r by simp] at this)
    refine ⟨s', ?_, by simpa using h2⟩
    simp only [List.foldlM_cons, e1]
    exact e2

theorem foldl_at (W : List (Pin × ℕ)) (x : Pin) (v : ℕ) :
    ∀ value : Pin → ℕ, (∀ w ∈ W, w.1 = x → w.2 = v) → (∃ w ∈ W, w.1 = x) ∨ value x = v →
      (W.foldl (fun v w => Function.update v w.1 w.2) value) x = v := by
  induction W with
  | nil => intro value _ h; simpa using h
  | cons w W ih =>
    intro value hall h
    rw [List.foldl_cons]
    refine ih _ (fun u hu => hall u (by simp [hu])) ?_
    by_cases hw : w.1 = x
    · right
      rw [← hw, Function.update_self]
      exact hall w (by simp) hw
    · rcases h with ⟨u, hu, e⟩ | h
      · simp only [List.mem_cons] at hu
        rcases hu with rfl | hu
        · exact absurd e hw
        · exact Or.inl ⟨u, hu, e⟩
      · right
        rw [Function.update_of_ne (Ne.symm hw)]
        exact h

theorem mem_pinOrder (x : Pin) : x ∈ pinOrder := by
  obtain ⟨p, i⟩ := x
  simp [pinOrder]

/-- What the sequence registers and the tables are good for: each analog pin
gets what its own converter read at its own channel, and no other value
changes. -/
theorem C92_own (cfg : Cfg) (h3 : ∀ x a ch, cfg x = some (a, ch) → a < 3 ∧ ch < 32)
    (h4 : ∀ a, (pinsOn cfg a pinOrder).length ≤ 4) :
    ∃ s, updateConfig cfg = some s ∧ ∀ (volt old : ℕ → ℕ → ℕ) (value : Pin → ℕ) (x : Pin),
      isrSample volt old s value x =
        match cfg x with
        | some (a, ch) => volt a ch
        | none => value x := by
  obtain ⟨s, e, h⟩ := holds_fold (fun x a ch hx => (h3 x a ch hx).1) pinOrder (l := [])
    (s := fun _ => {}) (fun a => by simp [pinsOn, packFrom]) (by simpa using h4)
  rw [List.nil_append] at h
  refine ⟨fun a => setLength (s a), by simp [updateConfig, e], ?_⟩
  intro volt old value x
  -- every store of pin `y` is of its own channel
  have key : ∀ w ∈ stores volt old (fun a => setLength (s a)),
      ∃ a ch, cfg w.1 = some (a, ch) ∧ w.2 = volt a ch := by
    intro w hw
    unfold stores at hw
    rw [List.mem_flatMap] at hw
    obtain ⟨a, -, hw⟩ := hw
    rw [List.mem_map] at hw
    obtain ⟨⟨y, j⟩, hyj, rfl⟩ := hw
    have hst : (setLength (s a)).store = pinsOn cfg a pinOrder := (h a).1
    rw [hst, List.mem_zipIdx_iff_getElem?] at hyj
    simp only at hyj
    obtain ⟨hj, hy⟩ := List.getElem?_eq_some_iff.1 hyj
    have hmem : y ∈ pinsOn cfg a pinOrder := by rw [← hy]; exact List.getElem_mem hj
    have hcy : (cfg y).map Prod.fst = some a := by
      have := (List.mem_filter.1 hmem).2
      simpa using this
    obtain ⟨⟨a', ch⟩, hc, ha'⟩ := Option.map_eq_some_iff.1 hcy
    simp only at ha'
    subst ha'
    refine ⟨a', ch, hc, ?_⟩
    simp only
    unfold jdr
    set l := (pinsOn cfg a' pinOrder).map (chan cfg) with hl
    have hlen : l.length = (pinsOn cfg a' pinOrder).length := by simp [hl]
    have hjs : (setLength (s a')).jsqr = packFrom 0 l ||| (((s a').store.length + 3) % 4) := by
      unfold setLength
      simp only
      rw [(h a').2]
    have hq : ((s a').store.length + 3) % 4 < 4 := Nat.mod_lt _ (by norm_num)
    have hcl : ∀ c ∈ l, c < 32 := by
      intro c hc'
      rw [hl, List.mem_map] at hc'
      obtain ⟨z, hz, rfl⟩ := hc'
      have := (List.mem_filter.1 hz).2
      simp only [decide_eq_true_eq] at this
      obtain ⟨⟨b, d⟩, hz', -⟩ := Option.map_eq_some_iff.1 this
      simp only [chan, hz']
      exact (h3 z b d hz').2
    have h4' : l.length ≤ 4 := by rw [hlen]; exact h4 a'
    rw [hjs, pack_length l hcl h4' _ hq, ← pos_field (by omega), pack_field l hcl h4' _ hq j (by rw [hlen]; exact hj)]
    rw [if_pos]
    · congr 1
      simp [hl, hy, chan, hc]
    · rw [hst, (h a').1]
      have := h4 a'
      omega
  have hmemS : ∀ a ch, cfg x = some (a, ch) →
      ∃ w ∈ stores volt old (fun a => setLength (s a)), w.1 = x := by
    intro a ch hx
    have hmem : x ∈ pinsOn cfg a pinOrder :=
      List.mem_filter.2 ⟨mem_pinOrder x, by simp [hx]⟩
    obtain ⟨j, hj, e⟩ := List.getElem_of_mem hmem
    refine ⟨(x, jdr volt old a (setLength (s a)) j), ?_, rfl⟩
    unfold stores
    rw [List.mem_flatMap]
    refine ⟨a, List.mem_range.2 (h3 x a ch hx).1, ?_⟩
    rw [List.mem_map]
    refine ⟨(x, j), ?_, rfl⟩
    have hst : (setLength (s a)).store = pinsOn cfg a pinOrder := (h a).1
    rw [hst, List.mem_zipIdx_iff_getElem?]
    simp [List.getElem?_eq_getElem hj, e]
  unfold isrSample
  cases hx : cfg x with
  | none =>
    simp only
    refine foldl_at _ x _ _ (fun w hw hwx => ?_) (Or.inr rfl)
    obtain ⟨a, ch, hc, -⟩ := key w hw
    rw [hwx, hx] at hc
    cases hc
  | some ac =>
    obtain ⟨a, ch⟩ := ac
    simp only
    refine foldl_at _ x _ _ (fun w hw hwx => ?_) (Or.inl (hmemS a ch hx))
    obtain ⟨a', ch', hc, hv⟩ := key w hw
    rw [hwx, hx] at hc
    cases hc
    exact hv

/-- What an addition that succeeds says. -/
theorem addPin_some {cfg : Cfg} {s s' : ℕ → Conv} {x : Pin} (h : addPin cfg s x = some s') :
    (∀ a ch, cfg x = some (a, ch) → a < 3 ∧ (s' a).store.length ≤ 4) ∧
    ∀ a, (s' a).store = (s a).store ++ pinsOn cfg a [x] := by
  unfold addPin at h
  split at h
  · rename_i hx
    injection h with h
    subst h
    exact ⟨by simp [hx], fun a => by simp [pinsOn, hx]⟩
  · rename_i a ch hx
    split at h
    · cases h
    · split at h
      · cases h
      · rename_i h1 h2
        injection h with h
        subst h
        refine ⟨?_, fun b => ?_⟩
        · intro a' ch' e
          rw [hx] at e
          injection e with e
          injection e with e1 e2
          subst e1
          refine ⟨by omega, ?_⟩
          rw [Function.update_self]
          simp only [List.length_append, List.length_singleton]
          omega
        · by_cases hb : b = a
          · subst hb
            simp [pinsOn, hx]
          · rw [Function.update_of_ne hb]
            simp [pinsOn, hx, Ne.symm hb]

/-- A converter that does not exist, or more than four pins at one converter, stop the
controller. -/
theorem C92_stops (cfg : Cfg) (s : ℕ → Conv) (h : updateConfig cfg = some s) :
    (∀ x a ch, cfg x = some (a, ch) → a < 3) ∧
    ∀ a, (pinOrder.filter fun x => decide ((cfg x).map Prod.fst = some a)).length ≤ 4 := by
  have key : ∀ (r l : List Pin) (s s' : ℕ → Conv), r.foldlM (addPin cfg) s = some s' →
      (∀ a, (s a).store = pinsOn cfg a l ∧ (s a).store.length ≤ 4) →
      (∀ x ∈ r, ∀ a ch, cfg x = some (a, ch) → a < 3) ∧
      ∀ a, (s' a).store = pinsOn cfg a (l ++ r) ∧ (s' a).store.length ≤ 4 := by
    intro r
    induction r with
    | nil =>
      intro l s s' h hl
      simp only [List.foldlM_nil] at h
      injection h with h
      subst h
      simpa using hl
    | cons x r ih =>
      intro l s s' h hl
      simp only [List.foldlM_cons] at h
      obtain ⟨m, e1, e2⟩ := Option.bind_eq_some_iff.1 h
      obtain ⟨g1, g2⟩ := addPin_some e1
      obtain ⟨k1, k2⟩ := ih (l ++ [x]) m s' e2 (fun a => by
        refine ⟨?_, ?_⟩
        · rw [g2, (hl a).1]
          simp [pinsOn]
        · by_cases hx : ∃ ch, cfg x = some (a, ch)
          · obtain ⟨ch, hx⟩ := hx
            exact (g1 a ch hx).2
          · have : pinsOn cfg a [x] = [] := by
              unfold pinsOn
              rw [List.filter_eq_nil_iff]
              intro y hy
              rw [List.mem_singleton] at hy
              subst hy
              intro hc
              rw [decide_eq_true_eq] at hc
              obtain ⟨⟨a', ch⟩, e, rfl⟩ := Option.map_eq_some_iff.1 hc
              exact hx ⟨ch, e⟩
            rw [g2, this, List.append_nil]
            exact (hl a).2)
      refine ⟨?_, by simpa using k2⟩
      intro y hy
      rcases List.mem_cons.1 hy with rfl | hy
      · exact fun a ch e => (g1 a ch e).1
      · exact k1 y hy
  unfold updateConfig at h
  obtain ⟨m, e, -⟩ := Option.map_eq_some_iff.1 h
  obtain ⟨k1, k2⟩ := key pinOrder [] _ m e (fun a => by simp [pinsOn])
  refine ⟨fun x => k1 x (mem_pinOrder x), fun a => ?_⟩
  have := k2 a
  rw [List.nil_append] at this
  have h2 := this.2
  rw [this.1] at h2
  exact h2

/-- Four pins at one converter are accepted, five are not. -/
example : (updateConfig fun x => if x.1 = 0 ∧ x.2 ≠ 4 then some (1, x.2) else none).isSome = true ∧
    (updateConfig fun x => if x.1 = 0 then some (1, x.2) else none).isSome = false := by
  decide +kernel

end Verif.Fw.Adc
