import Verif.Multiplex.Lemmas

/-! # Lemmas about `WriteCombiner` -/

namespace Verif.Multiplex

open Verif Verif.Float Verif.Multiplex.Spec

/-- Framing bytes when the count fits. -/
def header (base : Nat) (r : Res) (count register : Nat) : Bytes :=
  (if count ≤ 3 then [UInt8.ofNat (base + r.commandBits + count)]
   else [UInt8.ofNat (base + r.commandBits), UInt8.ofNat count]) ++ writeVaruint register

/-- The base commands that are used: write, read, reply. -/
def BaseOk (base : Nat) : Prop := base = 0x00 ∨ base = 0x10 ∨ base = 0x20

theorem writeInt8_ok {n : Nat} (h : n < 128) : writeInt8 n = .ok [UInt8.ofNat n] := by
  unfold writeInt8 packInt
  have h1 : -(2 ^ (8 * Res.int8.size - 1) : Int) ≤ n ∧ (n : Int) < 2 ^ (8 * Res.int8.size - 1) := by
    simp [Res.size]; omega
  rw [if_pos h1]
  simp only [Res.size, leBytes, ofSigned]
  have : ((n : Int) % (2 ^ (8 * 1))).toNat = n := by
    rw [Int.emod_eq_of_lt (by omega) (by omega)]; simp
  rw [this, Nat.mod_eq_of_lt (by omega)]

theorem writeInt8_err {n : Nat} (h : 128 ≤ n) : writeInt8 n = .error .structError := by
  unfold writeInt8 packInt
  rw [if_neg]
  simp [Res.size]; omega

theorem or_base {base : Nat} (hb : BaseOk base) (r : Res) :
    r.commandBits ||| base = base + r.commandBits := by
  rcases hb with rfl | rfl | rfl <;> cases r <;> rfl

theorem base_bound {base : Nat} (hb : BaseOk base) (r : Res) :
    base + r.commandBits + 3 < 128 := by
  rcases hb with rfl | rfl | rfl <;> cases r <;> decide

theorem blockHeader_ok {base : Nat} (hb : BaseOk base) (r : Res) {count : Nat} (reg : Nat)
    (h : count < 128) : blockHeader base r count reg = .ok (header base r count reg) := by
  have h1 := base_bound hb r
  unfold blockHeader header
  rw [or_base hb]
  by_cases hc : count ≤ 3
  · simp only [hc, if_true]
    rw [writeInt8_ok (by omega)]; rfl
  · simp only [hc, if_false]
    rw [writeInt8_ok (by omega), writeInt8_ok h]; rfl

theorem blockHeader_err {base : Nat} (hb : BaseOk base) (r : Res) {count : Nat} (reg : Nat)
    (h : 128 ≤ count) : blockHeader base r count reg = .error .structError := by
  have h1 := base_bound hb r
  unfold blockHeader
  rw [or_base hb]
  have hc : ¬ count ≤ 3 := by omega
  simp only [hc, if_false]
  rw [writeInt8_ok (by omega), writeInt8_err h]; rfl

theorem header_length (base base' : Nat) (r : Res) (count reg : Nat) :
    (header base r count reg).length = (header base' r count reg).length := by
  unfold header; split <;> simp

/-- Bytes produced for the remaining entries when `prev` is the resolution of
the previous entry. -/
def enc (base reg : Nat) (prev : Option (Option Res)) : List (Option Res × Bytes) → Bytes
  | [] => []
  | (none, _) :: rs => enc base (reg + 1) (some none) rs
  | (some r, w) :: rs =>
    (if prev = some (some r) then [] else header base r (1 + countRun r (rs.map Prod.fst)) reg)
      ++ w ++ enc base (reg + 1) (some (some r)) rs

/-- Reply size accumulated for the remaining entries. -/
def encSize (base reg : Nat) (prev : Option (Option Res)) : List (Option Res) → Nat
  | [] => 0
  | none :: rs => encSize base (reg + 1) (some none) rs
  | some r :: rs =>
    (if prev = some (some r) then 0
      else (header base r (1 + countRun r rs) reg).length + (1 + countRun r rs) * r.size)
      + encSize base (reg + 1) (some (some r)) rs

/-- All blocks that start in the remaining entries are short enough. -/
def RunsOk (prev : Option (Option Res)) : List (Option Res) → Prop
  | [] => True
  | none :: rs => RunsOk (some none) rs
  | some r :: rs => (prev = some (some r) ∨ countRun r rs < 127) ∧ RunsOk (some (some r)) rs

theorem drop_pre {α} (pre : List α) (x : α) (xs : List α) :
    (pre ++ x :: xs).drop (pre.length + 1) = xs := by
  rw [show pre ++ x :: xs = (pre ++ [x]) ++ xs by simp,
    List.drop_left' (by simp)]

theorem get_pre {α} (pre : List α) (x : α) (xs : List α) :
    (pre ++ x :: xs)[pre.length]? = some x := by simp

/-- Result of running the combiner over the remaining entries. -/
theorem run_ok {base : Nat} (hb : BaseOk base) (items : List (Option Res × Bytes))
    (pre : List (Option Res)) (c : WriteCombiner)
    (hbase : c.base = base)
    (hres : c.resolutions = pre ++ items.map Prod.fst) (hoff : c.offset = pre.length)
    (hruns : RunsOk c.current (items.map Prod.fst)) :
    ∃ c', c.run (items.map fun i => .ok i.2) = .ok c' ∧
      c'.buf = c.buf ++ enc base (c.startRegister + c.offset) c.current items ∧
      c'.replySize = c.replySize +
        encSize base (c.startRegister + c.offset) c.current (items.map Prod.fst) := by
  induction items generalizing pre c with
  | nil => exact ⟨c, by simp [WriteCombiner.run, enc, encSize]⟩
  | cons it items ih =>
    obtain ⟨x, w⟩ := it
    simp only [List.map_cons] at hres hruns ⊢
    have hget : c.resolutions[c.offset]? = some x := by rw [hres, hoff]; exact get_pre _ _ _
    have hdrop : c.resolutions.drop (c.offset + 1) = items.map Prod.fst := by
      rw [hres, hoff]; exact drop_pre _ _ _
    have hres' : c.resolutions = (pre ++ [x]) ++ items.map Prod.fst := by simp [hres]
    cases x with
    | none =>
      have hm : c.maybeWrite =
          .ok (false, { c with offset := c.offset + 1, current := some none }) := by
        unfold WriteCombiner.maybeWrite
        rw [hget]
        by_cases hc : c.current = some none
        · simp [hc]
        · simp [hc]
      obtain ⟨c', h1, h2, h3⟩ := ih (pre ++ [none])
        { c with offset := c.offset + 1, current := some none } hbase
        hres' (by simp [hoff]) hruns
      refine ⟨c', ?_, ?_, ?_⟩
      · simp only [WriteCombiner.run, hm]; exact h1
      · rw [h2]; simp [enc, Nat.add_assoc]
      · rw [h3]; simp [encSize, Nat.add_assoc]
    | some r =>
      by_cases hc : c.current = some (some r)
      · have hm : c.maybeWrite = .ok (true, { c with offset := c.offset + 1 }) := by
          unfold WriteCombiner.maybeWrite
          rw [hget]; simp [hc]
        obtain ⟨c', h1, h2, h3⟩ := ih (pre ++ [some r])
          { c with offset := c.offset + 1, buf := c.buf ++ w } hbase
          hres' (by simp [hoff]) (by rw [hc] at hruns ⊢; exact hruns.2)
        refine ⟨c', ?_, ?_, ?_⟩
        · simp only [WriteCombiner.run, hm]; exact h1
        · rw [h2]; simp [enc, Nat.add_assoc, hc]
        · rw [h3]; simp [encSize, Nat.add_assoc, hc]
      · have hcount : 1 + countRun r (items.map Prod.fst) < 128 := by
          rcases hruns.1 with h | h
          · exact absurd h hc
          · omega
        have hm : c.maybeWrite = .ok (true, { c with
            buf := c.buf ++ header base r (1 + countRun r (items.map Prod.fst))
              (c.startRegister + c.offset)
            offset := c.offset + 1
            current := some (some r)
            replySize := c.replySize + (header base r (1 + countRun r (items.map Prod.fst))
              (c.startRegister + c.offset)).length
              + (1 + countRun r (items.map Prod.fst)) * r.size }) := by
          unfold WriteCombiner.maybeWrite
          rw [hget]
          simp only [hc, if_false, hdrop, hbase, blockHeader_ok hb r _ hcount]
          rfl
        obtain ⟨c', h1, h2, h3⟩ := ih (pre ++ [some r])
          { c with
            buf := c.buf ++ header base r (1 + countRun r (items.map Prod.fst))
              (c.startRegister + c.offset) ++ w
            offset := c.offset + 1
            current := some (some r)
            replySize := c.replySize + (header base r (1 + countRun r (items.map Prod.fst))
              (c.startRegister + c.offset)).length
              + (1 + countRun r (items.map Prod.fst)) * r.size } hbase
          hres' (by simp [hoff]) hruns.2
        refine ⟨c', ?_, ?_, ?_⟩
        · simp only [WriteCombiner.run, hm]; exact h1
        · rw [h2]; simp [enc, Nat.add_assoc, hc]
        · rw [h3]; simp [encSize, Nat.add_assoc, hc]

/-- A block that is too long raises `struct.error`. -/
theorem run_err {base : Nat} (hb : BaseOk base) (items : List (Option Res × Bytes))
    (pre : List (Option Res)) (c : WriteCombiner)
    (hbase : c.base = base)
    (hres : c.resolutions = pre ++ items.map Prod.fst) (hoff : c.offset = pre.length)
    (hruns : ¬ RunsOk c.current (items.map Prod.fst)) :
    c.run (items.map fun i => .ok i.2) = .error .structError := by
  induction items generalizing pre c with
  | nil => exact absurd trivial hruns
  | cons it items ih =>
    obtain ⟨x, w⟩ := it
    simp only [List.map_cons] at hres hruns ⊢
    have hget : c.resolutions[c.offset]? = some x := by rw [hres, hoff]; exact get_pre _ _ _
    have hdrop : c.resolutions.drop (c.offset + 1) = items.map Prod.fst := by
      rw [hres, hoff]; exact drop_pre _ _ _
    have hres' : c.resolutions = (pre ++ [x]) ++ items.map Prod.fst := by simp [hres]
    cases x with
    | none =>
      have hm : c.maybeWrite =
          .ok (false, { c with offset := c.offset + 1, current := some none }) := by
        unfold WriteCombiner.maybeWrite
        rw [hget]
        by_cases hc : c.current = some none
        · simp [hc]
        · simp [hc]
      simp only [WriteCombiner.run, hm]
      exact ih (pre ++ [none])
        { c with offset := c.offset + 1, current := some none } hbase
        hres' (by simp [hoff]) hruns
    | some r =>
      by_cases hc : c.current = some (some r)
      · have hm : c.maybeWrite = .ok (true, { c with offset := c.offset + 1 }) := by
          unfold WriteCombiner.maybeWrite
          rw [hget]; simp [hc]
        simp only [WriteCombiner.run, hm]
        exact ih (pre ++ [some r])
          { c with offset := c.offset + 1, buf := c.buf ++ w } hbase
          hres' (by simp [hoff]) (by
            intro h; exact hruns ⟨Or.inl hc, by rw [← hc]; exact h⟩)
      · by_cases hcount : 1 + countRun r (items.map Prod.fst) < 128
        · have hm : c.maybeWrite = .ok (true, { c with
              buf := c.buf ++ header base r (1 + countRun r (items.map Prod.fst))
                (c.startRegister + c.offset)
              offset := c.offset + 1
              current := some (some r)
              replySize := c.replySize + (header base r (1 + countRun r (items.map Prod.fst))
                (c.startRegister + c.offset)).length
                + (1 + countRun r (items.map Prod.fst)) * r.size }) := by
            unfold WriteCombiner.maybeWrite
            rw [hget]
            simp only [hc, if_false, hdrop, hbase, blockHeader_ok hb r _ hcount]
            rfl
          simp only [WriteCombiner.run, hm]
          refine ih (pre ++ [some r]) _ hbase hres' (by simp [hoff]) ?_
          intro h; exact hruns ⟨Or.inr (by omega), h⟩
        · have hm : c.maybeWrite = .error .structError := by
            unfold WriteCombiner.maybeWrite
            rw [hget]
            simp only [hc, if_false, hdrop, hbase,
              blockHeader_err hb r _ (show 128 ≤ 1 + countRun r (items.map Prod.fst) by omega)]
            rfl
          simp only [WriteCombiner.run, hm]
          rfl

/-! ## Long runs -/

theorem countRun_spec (r : Res) (rs : List (Option Res)) (n : Nat) :
    n ≤ countRun r rs ↔ List.replicate n (some r) <+: rs := by
  induction n generalizing rs with
  | zero => simp
  | succ n ih =>
    cases rs with
    | nil => simp [countRun, List.replicate_succ]
    | cons x xs =>
      by_cases hx : x = some r
      · subst hx
        simp only [countRun, if_true, List.replicate_succ, List.cons_prefix_cons, true_and]
        rw [← ih]; omega
      · simp only [countRun, hx, if_false, List.replicate_succ, List.cons_prefix_cons]
        constructor
        · intro h; omega
        · intro h; exact absurd h.1.symm hx

/-- `RunsOk` says that there is no run of 128 equal entries, apart from the
one that continues `prev`. -/
theorem runsOk_iff (prev : Option (Option Res)) (rs : List (Option Res))
    (hprev : ∀ r, prev = some (some r) → countRun r rs < 127) :
    RunsOk prev rs ↔ ¬ LongRun rs := by
  induction rs generalizing prev with
  | nil => simp [RunsOk, LongRun]
  | cons x rs ih =>
    have key : LongRun (x :: rs) ↔
        (∃ r, List.replicate 128 (some r) <+: x :: rs) ∨ LongRun rs := by
      unfold LongRun
      simp only [List.infix_cons_iff]
      exact exists_or
    cases x with
    | none =>
      simp only [RunsOk]
      rw [ih _ (by simp), key]
      simp [List.replicate_succ]
    | some r =>
      simp only [RunsOk]
      rw [key]
      have h1 : (∃ r', List.replicate 128 (some r') <+: some r :: rs) ↔ 127 ≤ countRun r rs := by
        constructor
        · rintro ⟨r', h⟩
          rw [show (128 : Nat) = 127 + 1 from rfl, List.replicate_succ,
            List.cons_prefix_cons] at h
          obtain ⟨h0, h⟩ := h
          cases h0
          exact (countRun_spec _ _ _).mpr h
        · intro h
          refine ⟨r, ?_⟩
          rw [show (128 : Nat) = 127 + 1 from rfl, List.replicate_succ,
            List.cons_prefix_cons]
          exact ⟨rfl, (countRun_spec _ _ _).mp h⟩
      rw [h1]
      by_cases hc : countRun r rs < 127
      · rw [ih _ (by rintro r' h; cases h; exact hc)]
        constructor
        · rintro ⟨_, h⟩; rintro (h' | h')
          · omega
          · exact h h'
        · intro h; exact ⟨Or.inr hc, fun h' => h (Or.inr h')⟩
      · constructor
        · rintro ⟨h | h, _⟩
          · have := hprev r h
            simp [countRun] at this; omega
          · exact absurd h hc
        · intro h; exact absurd (Or.inl (by omega)) h

end Verif.Multiplex
