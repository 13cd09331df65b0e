import Mathlib.Data.List.Basic
import Mathlib.Data.List.GetD
import Mathlib.Data.Rat.Defs
import Mathlib.Algebra.Order.Ring.Rat
import Mathlib.Tactic.Linarith
import Mathlib.Tactic.NormNum
import Mathlib.Tactic.Positivity
import Mathlib.Tactic.Ring

/-!
# The search for the trimming of an encoder (C109)

`utils/measure_ma732_bct.py` measures with different trimmings how much the speed of a turning motor seems to
vary.  A positive number trims the X axis, any other the Y axis.

A measurement is its number, or `none` if less than three tenths of the values are finite.  Numbers are exact.
Not modelled: the voltage, finding the source of the encoder, the motion, how the numbers are measured.
-/

namespace Verif.Tool.Bct

/-! ## the program -/

/-- `Searcher` (36-47). -/
structure Searcher where
  low : ℤ
  high : ℤ
  searchStart : List ℤ
  results : List (ℤ × ℚ)

/-- Python's `list(range(lo, hi, step))` for a positive step. -/
def pyRange (lo hi step : ℤ) : List ℤ :=
  (List.range ((hi - lo + step - 1) / step).toNat).map fun i : ℕ => lo + step * i

/-- `start_range` (44-47). -/
def startRange (s : Searcher) : Searcher :=
  { s with searchStart := pyRange s.low (s.high + 1) (max 2 ((s.high - s.low) / 16)), results := [] }

/-- `__init__` (37-42). -/
def Searcher.new : Searcher := startRange ⟨-248, 248, [], []⟩

/-- `min(sorted([(b, a) for a, b in results]))` (60); `none` is the ValueError. -/
def minPair : List (ℤ × ℚ) → Option (ℤ × ℚ)
  | [] => none
  | p :: l =>
    match minPair l with
    | none => some p
    | some q => if p.2 < q.2 ∨ (p.2 = q.2 ∧ p.1 ≤ q.1) then some p else some q

/-- what a call returns: a value to try, the best one, or an exception. -/
inductive Out where
  | next (x : ℤ)
  | best (x : ℤ) (m : ℚ)
  | valueError

/-- `__call__` when nothing is left to try (58-76). -/
def finish (s : Searcher) : Out × Searcher :=
  match minPair s.results with
  | none => (.valueError, s)
  | some (v, m) =>
    let xs := s.results.map Prod.fst
    let index := xs.idxOf v
    let before := index - 1
    let after := min (xs.length - 1) (index + 1)
    let s := { s with low := xs.getD before 0, high := xs.getD after 0 }
    if s.high - s.low < 8 then (.best v m, s)
    else
      let s := startRange s
      match s.searchStart with
      | x :: l => (.next x, { s with searchStart := l })
      | [] => (.valueError, s)

/-- `__call__` (49-76). -/
def call (s : Searcher) (r : Option (ℤ × ℚ)) : Out × Searcher :=
  let s := match r with
    | some p => { s with results := s.results ++ [p] }
    | none => s
  match s.searchStart with
  | x :: l => (.next x, { s with searchStart := l })
  | [] => finish s

/-- how the search ends. -/
inductive Result where
  | found (x : ℤ) (m : ℚ)
  | valueError
  | typeError
  | running
  deriving DecidableEq

/-- the loop of `find_best_bct` (237-270): the values that are tried, and the end.  If a measurement fails,
what the searcher found is dropped, and the comparison of `None` with 0 raises TypeError. -/
def loop (s : Searcher) (x : ℤ) : List (Option ℚ) → List ℤ × Result
  | [] => ([], .running)
  | none :: ms =>
    match call s none with
    | (.next y, s') => (x :: (loop s' y ms).1, (loop s' y ms).2)
    | (.best _ _, _) => ([x], .typeError)
    | (.valueError, _) => ([x], .valueError)
  | some m :: ms =>
    match call s (some (x, m)) with
    | (.next y, s') => (x :: (loop s' y ms).1, (loop s' y ms).2)
    | (.best b mb, _) => ([x], .found b mb)
    | (.valueError, _) => ([x], .valueError)

/-- `find_best_bct` (232-270) with these measurements. -/
def findBest (ms : List (Option ℚ)) : List ℤ × Result :=
  match call Searcher.new none with
  | (.next x, s) => loop s x ms
  | _ => ([], .typeError)

/-- the settings of the controller that the tool changes. -/
structure Conf where
  trim : ℤ
  bct : ℤ
  poles : ℚ
  positionMin : Option ℚ
  positionMax : Option ℚ
  deriving DecidableEq

/-- the settings while `x` is tried (240-241). -/
def tried (c : Conf) (x : ℤ) : Conf := { c with trim := if x > 0 then 1 else 2, bct := |x| }

/-- `run` (124-153): the settings afterwards and whether they are saved. -/
def run (c : Conf) (ms : List (Option ℚ)) : Conf × Bool :=
  let start : Conf := ⟨0, 0, 2, none, none⟩
  let r := findBest ms
  let last := r.1.foldl tried start
  let restore (d : Conf) : Conf :=
    { d with poles := c.poles, positionMin := c.positionMin, positionMax := c.positionMax }
  match r.2 with
  | .found x _ => (restore { last with trim := if x > 0 then 1 else 2, bct := x }, true)
  | .running => (last, false)
  | _ => (restore last, false)

/-! ## the specification -/

namespace Spec

/-- `n` values from `lo` on. -/
def ladder (lo step : ℤ) (n : ℕ) : List ℤ := (List.range n).map fun i : ℕ => lo + step * i

/-- a pair with the smallest measurement. -/
def IsBest (l : List (ℤ × ℚ)) (p : ℤ × ℚ) : Prop := p ∈ l ∧ ∀ q ∈ l, p.2 ≤ q.2

/-- a measurement that falls up to `a` and rises from there. -/
def Valley (f : ℤ → ℚ) (a : ℤ) : Prop := (∀ x y, x < y → y ≤ a → f y < f x) ∧ ∀ x y, a ≤ x → x < y → f x < f y

/-- the axis and the value that a number stands for. -/
def axis (x : ℤ) : ℤ := if 0 < x then 1 else 2

end Spec

open Spec

/-! ## proofs -/

private theorem minPair_best : ∀ l : List (ℤ × ℚ), l ≠ [] → ∃ p, minPair l = some p ∧ IsBest l p
  | [], h => absurd rfl h
  | p :: l, _ => by
    by_cases hl : l = []
    · subst hl
      exact ⟨p, rfl, List.mem_singleton.2 rfl, fun q hq => by rw [List.mem_singleton.1 hq]⟩
    · obtain ⟨q, h1, h2, h3⟩ := minPair_best l hl
      unfold minPair
      rw [h1]
      by_cases hc : p.2 < q.2 ∨ (p.2 = q.2 ∧ p.1 ≤ q.1)
      · refine ⟨p, if_pos hc, List.mem_cons_self, fun r hr => ?_⟩
        rcases List.mem_cons.1 hr with rfl | hr
        · exact le_refl _
        · have := h3 r hr
          rcases hc with hc | ⟨hc, -⟩
          · exact le_trans hc.le this
          · rw [hc]
            exact this
      · refine ⟨q, if_neg hc, List.mem_cons_of_mem _ h2, fun r hr => ?_⟩
        rcases List.mem_cons.1 hr with rfl | hr
        · push Not at hc
          exact hc.1
        · exact h3 r hr

/-- what is left of a round. -/
private theorem loop_round : ∀ (todo : List ℤ) (lo hi : ℤ) (res : List (ℤ × ℚ)) (x : ℤ) (ms : List ℚ)
    (rest : List (Option ℚ)), ms.length = todo.length + 1 →
    loop ⟨lo, hi, todo, res⟩ x (ms.map some ++ rest) =
      match finish ⟨lo, hi, [], res ++ (x :: todo).zip ms⟩ with
      | (.next y, s') => ((x :: todo) ++ (loop s' y rest).1, (loop s' y rest).2)
      | (.best b mb, _) => (x :: todo, .found b mb)
      | (.valueError, _) => (x :: todo, .valueError)
  | [], lo, hi, res, x, ms, rest, h => by
    match ms, h with
    | [m], _ =>
      simp only [List.map_cons, List.map_nil, List.cons_append, List.nil_append, loop, call, List.zip_cons_cons,
        List.zip_nil_right]
  | y :: todo, lo, hi, res, x, ms, rest, h => by
    match ms, h with
    | m :: ms, h =>
      have ih := loop_round todo lo hi (res ++ [(x, m)]) y ms rest (by simpa using h)
      simp only [List.map_cons, List.cons_append, loop, call, List.zip_cons_cons] at ih ⊢
      rw [ih, List.append_assoc, List.singleton_append]
      rcases finish ⟨lo, hi, [], res ++ (x, m) :: (y :: todo).zip ms⟩ with ⟨o, s'⟩
      cases o <;> simp

private theorem ladder_getD (lo step : ℤ) (n k : ℕ) (hk : k < n) : (ladder lo step n).getD k 0 = lo + step * k := by
  unfold ladder
  rw [List.getD_eq_getElem _ _ (by simpa using hk)]
  simp

private theorem ladder_length (lo step : ℤ) (n : ℕ) : (ladder lo step n).length = n := by simp [ladder]

/-- the end of a round. -/
private theorem finish_round {lo hi l step : ℤ} {n : ℕ} {full : List (ℤ × ℚ)} (hn : 0 < n)
    (hfull : full.map Prod.fst = ladder l step n) :
    ∃ (k : ℕ) (c : ℤ × ℚ), k < n ∧ IsBest full c ∧ c.1 = l + step * k ∧
      finish ⟨lo, hi, [], full⟩ =
        (let s : Searcher := ⟨l + step * ((k - 1 : ℕ) : ℤ), l + step * ((min (n - 1) (k + 1) : ℕ) : ℤ), [], full⟩
         if s.high - s.low < 8 then (.best c.1 c.2, s)
         else
          let s := startRange s
          match s.searchStart with
          | x :: l => (.next x, { s with searchStart := l })
          | [] => (.valueError, s)) := by
  have hne : full ≠ [] := by
    rintro rfl
    have := congrArg List.length hfull
    rw [ladder_length] at this
    simp at this
    omega
  obtain ⟨c, hm, hb⟩ := minPair_best full hne
  have hc : c.1 ∈ ladder l step n := by
    rw [← hfull]
    exact List.mem_map_of_mem hb.1
  have hk : (ladder l step n).idxOf c.1 < n := by
    have := List.idxOf_lt_length_iff.2 hc
    rwa [ladder_length] at this
  refine ⟨(ladder l step n).idxOf c.1, c, hk, hb, ?_, ?_⟩
  · have h1 := ladder_getD l step n _ hk
    rw [List.getD_eq_getElem _ _ (by rw [ladder_length]; exact hk), List.getElem_idxOf] at h1
    exact h1
  · unfold finish
    simp only [hm, hfull, ladder_length]
    rw [ladder_getD _ _ _ _ (by omega), ladder_getD _ _ _ _ (by omega)]

private theorem pyRange_ladder (lo hi step : ℤ) :
    pyRange lo hi step = ladder lo step ((hi - lo + step - 1) / step).toNat := rfl

private theorem ladder_succ (lo step : ℤ) (n : ℕ) : ∃ l, ladder lo step (n + 1) = lo :: l ∧ l.length = n := by
  refine ⟨((List.range n).map Nat.succ).map fun i : ℕ => lo + step * i, ?_, by simp⟩
  unfold ladder
  rw [List.range_succ_eq_map]
  simp

private theorem zip_fst {xs : List ℤ} {ms : List ℚ} (h : ms.length = xs.length) :
    (xs.zip ms).map Prod.fst = xs := List.map_fst_zip (by omega)

private theorem zip_snd {xs : List ℤ} {ms : List ℚ} (h : ms.length = xs.length) :
    (xs.zip ms).map Prod.snd = ms := List.map_snd_zip (by omega)

private theorem new_ladder : ∃ l, Searcher.new = ⟨-248, 248, -248 :: l, []⟩ ∧ -248 :: l = ladder (-248) 31 17 ∧
    l.length = 16 := by
  have h : pyRange (-248) (248 + 1) (max 2 ((248 - -248) / 16)) =
      -248 :: ((List.range 16).map Nat.succ).map fun i : ℕ => (-248 : ℤ) + 31 * i := by decide +kernel
  refine ⟨((List.range 16).map Nat.succ).map fun i : ℕ => (-248 : ℤ) + 31 * i, ?_, by decide +kernel, by simp⟩
  unfold Searcher.new startRange
  rw [h]

/-- **C109, the search.** If every measurement succeeds, 17 values from -248 to 248 are tried, then the interval
between the neighbours of the best one in steps of 2 or 3; the result is the best of these. -/
theorem C109_search {ms : List ℚ} (hlen : 38 ≤ ms.length) :
    ∃ (first second : List (ℤ × ℚ)) (c : ℤ × ℚ) (b : ℤ) (m : ℚ) (lo hi step : ℤ) (n : ℕ),
      findBest (ms.map some) = ((first ++ second).map Prod.fst, .found b m) ∧
      (first ++ second).map Prod.snd <+: ms ∧
      first.map Prod.fst = ladder (-248) 31 17 ∧ IsBest first c ∧
      lo = max (-248) (c.1 - 31) ∧ hi = min 248 (c.1 + 31) ∧
      second.map Prod.fst = ladder lo step n ∧ IsBest second (b, m) ∧
      (step = 2 ∨ step = 3) ∧ 0 < n ∧ n ≤ 21 ∧ lo + step * (n - 1) ≤ hi ∧ hi < lo + step * n := by
  obtain ⟨l, h0, h1, h2⟩ := new_ladder
  have hsplit : ms = ms.take 17 ++ ms.drop 17 := (List.take_append_drop 17 ms).symm
  have hl1 : (ms.take 17).length = 17 := by rw [List.length_take]; omega
  have hl2 : 21 ≤ (ms.drop 17).length := by rw [List.length_drop]; omega
  generalize ms.take 17 = m1 at hsplit hl1
  generalize ms.drop 17 = m2 at hsplit hl2
  have hfull : ((-248 :: l).zip m1).map Prod.fst = ladder (-248) 31 17 := by
    rw [zip_fst (by rw [hl1, List.length_cons, h2]), h1]
  have hsnd : ((-248 :: l).zip m1).map Prod.snd = m1 := zip_snd (by rw [hl1, List.length_cons, h2])
  obtain ⟨k, c, hk, hb, hck, hf⟩ := finish_round (lo := -248) (hi := 248) (by norm_num) hfull
  have e1 : findBest (ms.map some) = loop ⟨-248, 248, l, []⟩ (-248) (m1.map some ++ m2.map some) := by
    unfold findBest call
    simp only [h0]
    rw [hsplit, List.map_append]
  rw [loop_round l _ _ _ _ _ _ (by rw [hl1, h2]), List.nil_append, hf] at e1
  have hlo : (-248 : ℤ) + 31 * ((k - 1 : ℕ) : ℤ) = max (-248) (c.1 - 31) := by rw [hck]; omega
  have hhi : (-248 : ℤ) + 31 * ((min (17 - 1) (k + 1) : ℕ) : ℤ) = min 248 (c.1 + 31) := by rw [hck]; omega
  have hw : min 248 (c.1 + 31) - max (-248) (c.1 - 31) = 31 ∨ min 248 (c.1 + 31) - max (-248) (c.1 - 31) = 62 := by
    rw [hck]
    omega
  simp only [hlo, hhi] at e1
  generalize hL : max (-248) (c.1 - 31) = L at *
  generalize hH : min 248 (c.1 + 31) = H at *
  rw [if_neg (by omega)] at e1
  -- the second round
  have hstart : ∃ (step : ℤ) (n : ℕ), (step = 2 ∨ step = 3) ∧ n + 1 ≤ 21 ∧ L + step * n ≤ H ∧
      H < L + step * (n + 1) ∧ step * 2 < 8 ∧
      pyRange L (H + 1) (max 2 ((H - L) / 16)) = ladder L step (n + 1) := by
    rcases hw with hw | hw
    · refine ⟨2, 15, Or.inl rfl, by norm_num, by push_cast; omega, by push_cast; omega, by norm_num, ?_⟩
      rw [pyRange_ladder, hw, show H + 1 - L = 32 by omega]
      rfl
    · refine ⟨3, 20, Or.inr rfl, by norm_num, by push_cast; omega, by push_cast; omega, by norm_num, ?_⟩
      rw [pyRange_ladder, hw, show H + 1 - L = 63 by omega]
      rfl
  obtain ⟨step, n, hs, hn, hb1, hb2, hs8, hpy⟩ := hstart
  obtain ⟨l2, hl2', hl2len⟩ := ladder_succ L step n
  have hsr : (startRange ⟨L, H, [], (-248 :: l).zip m1⟩) = ⟨L, H, L :: l2, []⟩ := by
    unfold startRange
    simp only [hpy, hl2']
  simp only [hsr] at e1
  have hsplit2 : m2 = m2.take (n + 1) ++ m2.drop (n + 1) := (List.take_append_drop (n + 1) m2).symm
  have hl3 : (m2.take (n + 1)).length = n + 1 := by rw [List.length_take]; omega
  generalize m2.take (n + 1) = m3 at hsplit2 hl3
  generalize m2.drop (n + 1) = m4 at hsplit2
  have hfull2 : ((L :: l2).zip m3).map Prod.fst = ladder L step (n + 1) := by
    rw [zip_fst (by rw [hl3, List.length_cons, hl2len]), hl2']
  have hsnd2 : ((L :: l2).zip m3).map Prod.snd = m3 := zip_snd (by rw [hl3, List.length_cons, hl2len])
  obtain ⟨k2, c2, hk2, hbb, hck2, hf2⟩ := finish_round (lo := L) (hi := H) (by omega) hfull2
  rw [hsplit2, List.map_append, loop_round l2 _ _ _ _ _ _ (by rw [hl3, hl2len]), List.nil_append, hf2] at e1
  have hwidth : L + step * ((min (n + 1 - 1) (k2 + 1) : ℕ) : ℤ) - (L + step * ((k2 - 1 : ℕ) : ℤ)) < 8 := by
    have : ((min (n + 1 - 1) (k2 + 1) : ℕ) : ℤ) - ((k2 - 1 : ℕ) : ℤ) ≤ 2 := by omega
    rcases hs with rfl | rfl <;> omega
  simp only [if_pos hwidth] at e1
  refine ⟨(-248 :: l).zip m1, (L :: l2).zip m3, c, c2.1, c2.2, L, H, step, n + 1, ?_, ?_, hfull, hb, hL.symm, hH.symm,
    hfull2, hbb, hs, by omega, hn, by push_cast; rw [add_sub_cancel_right]; exact hb1, by push_cast; exact hb2⟩
  · rw [e1, List.map_append, hfull, hfull2, h1, hl2']
  · rw [List.map_append, hsnd, hsnd2, hsplit, hsplit2]
    exact ⟨m4, by rw [List.append_assoc]⟩

example : 38 ≤ (List.replicate 40 (1 / 2 : ℚ)).length := by simp

private theorem mem_ladder {lo step : ℤ} {n : ℕ} {x : ℤ} : x ∈ ladder lo step n ↔ ∃ i : ℕ, i < n ∧ lo + step * i = x := by
  simp [ladder]

/-- in a ladder of measurements of a valley the best is less than a step from the bottom. -/
private theorem valley_near {f : ℤ → ℚ} {a lo step : ℤ} {n : ℕ} {l : List (ℤ × ℚ)} {p : ℤ × ℚ} (hv : Valley f a)
    (hstep : 0 < step) (hl : l.map Prod.fst = ladder lo step n) (hf : ∀ q ∈ l, q.2 = f q.1) (hb : IsBest l p)
    (h1 : lo ≤ a) (h2 : a < lo + step * n) : |p.1 - a| < step := by
  have hmem : ∀ x ∈ ladder lo step n, f p.1 ≤ f x := by
    intro x hx
    rw [← hl] at hx
    obtain ⟨q, hq, rfl⟩ := List.mem_map.1 hx
    rw [← hf q hq, ← hf p hb.1]
    exact hb.2 q hq
  have hp : p.1 ∈ ladder lo step n := by rw [← hl]; exact List.mem_map_of_mem hb.1
  obtain ⟨i, hi, hpi⟩ := mem_ladder.1 hp
  rw [abs_lt]
  constructor
  · by_contra hc
    have hle : p.1 + step ≤ a := by omega
    have hin : i + 1 < n := by
      by_contra hcn
      have hn : (n : ℤ) ≤ i + 1 := by omega
      have := mul_le_mul_of_nonneg_left hn hstep.le
      rw [mul_add, mul_one] at this
      omega
    have := hmem _ (mem_ladder.2 ⟨i + 1, hin, rfl⟩)
    have he : lo + step * ((i + 1 : ℕ) : ℤ) = p.1 + step := by push_cast; rw [mul_add, mul_one]; omega
    rw [he] at this
    exact absurd (hv.1 p.1 (p.1 + step) (by omega) hle) (not_lt.2 this)
  · by_contra hc
    have hle : a ≤ p.1 - step := by omega
    have hi0 : 0 < i := by
      by_contra h0
      have : i = 0 := by omega
      rw [this] at hpi
      simp at hpi
      omega
    have := hmem _ (mem_ladder.2 ⟨i - 1, by omega, rfl⟩)
    have he : lo + step * ((i - 1 : ℕ) : ℤ) = p.1 - step := by
      rw [Nat.cast_sub (by omega)]
      push_cast
      rw [mul_sub, mul_one]
      omega
    rw [he] at this
    exact absurd (hv.2 (p.1 - step) p.1 hle (by omega)) (not_lt.2 this)

/-- the measurements are those of a function of the value that is tried. -/
def Measures (f : ℤ → ℚ) (ms : List ℚ) : Prop :=
  ∃ xs : List ℤ, ms = xs.map f ∧ (findBest (ms.map some)).1 <+: xs

private theorem measures_pairs {f : ℤ → ℚ} {ms : List ℚ} {l : List (ℤ × ℚ)} {xs : List ℤ} (h1 : ms = xs.map f)
    (h2 : l.map Prod.fst <+: xs) (h3 : l.map Prod.snd <+: ms) : ∀ q ∈ l, q.2 = f q.1 := by
  obtain ⟨t, ht⟩ := h2
  obtain ⟨u, hu⟩ := h3
  rw [h1, ← ht, List.map_append, List.map_map] at hu
  have := List.append_inj_left hu (by simp)
  intro q hq
  have := List.map_inj_left.1 this q hq
  exact this

/-- **C109, a valley.** If what is measured falls up to a value and rises after it, the result is at most 2 from
this value. -/
theorem C109_valley {f : ℤ → ℚ} {a : ℤ} {ms : List ℚ} (hv : Valley f a) (ha : -248 ≤ a ∧ a ≤ 248)
    (hlen : 38 ≤ ms.length) (hms : Measures f ms) :
    ∃ xs b m, findBest (ms.map some) = (xs, .found b m) ∧ m = f b ∧ |b - a| ≤ 2 := by
  obtain ⟨first, second, c, b, m, lo, hi, step, n, e1, e2, e3, e4, e5, e6, e7, e8, e9, e10, e11, e12, e13⟩ :=
    C109_search hlen
  obtain ⟨xs, hx1, hx2⟩ := hms
  rw [e1] at hx2
  have hp := measures_pairs hx1 hx2 e2
  have hc := valley_near hv (by norm_num) e3 (fun q hq => hp q (List.mem_append_left _ hq)) e4 ha.1
    (by push_cast; omega)
  rw [abs_lt] at hc
  have hs := valley_near hv (by omega) e7 (fun q hq => hp q (List.mem_append_right _ hq)) e8 (by omega) (by omega)
  refine ⟨_, b, m, e1, hp _ (List.mem_append_right _ e8.1), ?_⟩
  have : |b - a| < step := hs
  omega

/-- the hypotheses of `C109_valley`: the distance from 100. -/
example : Valley (fun x => if x ≤ 100 then 100 - (x : ℚ) else (x : ℚ) - 100) 100 := by
  constructor
  · intro x y h1 h2
    have : (x : ℚ) < y := by exact_mod_cast h1
    simp only [if_pos h2, if_pos (show x ≤ 100 by omega)]
    linarith
  · intro x y h1 h2
    have : (x : ℚ) < y := by exact_mod_cast h2
    have h3 : (100 : ℚ) ≤ x := by exact_mod_cast h1
    simp only [if_neg (show ¬ y ≤ 100 by omega)]
    split <;> linarith

example : Measures (fun x => if x ≤ 100 then 100 - (x : ℚ) else (x : ℚ) - 100)
    ((ladder (-248) 31 17 ++ ladder 62 3 21).map fun x => if x ≤ 100 then 100 - (x : ℚ) else (x : ℚ) - 100) :=
  ⟨ladder (-248) 31 17 ++ ladder 62 3 21, rfl, by decide +kernel⟩

/-! ### the values that are tried, also with failures -/

/-- everything is between -248 and 248. -/
private def In (x : ℤ) : Prop := -248 ≤ x ∧ x ≤ 248

private def Inv (s : Searcher) : Prop :=
  In s.low ∧ In s.high ∧ (∀ x ∈ s.searchStart, In x) ∧ ∀ p ∈ s.results, In p.1

private theorem startRange_inv {s : Searcher} (h1 : In s.low) (h2 : In s.high) : Inv (startRange s) := by
  refine ⟨h1, h2, ?_, fun p hp => absurd hp List.not_mem_nil⟩
  intro x hx
  show In x
  simp only [startRange, pyRange, List.mem_map, List.mem_range] at hx
  obtain ⟨i, hi, rfl⟩ := hx
  have hpos : (0 : ℤ) < max 2 ((s.high - s.low) / 16) := lt_of_lt_of_le (by norm_num) (le_max_left _ _)
  generalize max 2 ((s.high - s.low) / 16) = step at *
  have h3 : (i : ℤ) + 1 ≤ (s.high + 1 - s.low + step - 1) / step := by omega
  have h4 := (Int.le_ediv_iff_mul_le hpos).1 h3
  have h5 : (0 : ℤ) ≤ step * i := mul_nonneg hpos.le (by positivity)
  have h6 : ((i : ℤ) + 1) * step = step * i + step := by ring
  obtain ⟨a1, a2⟩ := h1
  obtain ⟨b1, b2⟩ := h2
  constructor <;> omega

private theorem getD_in {l : List (ℤ × ℚ)} (h : ∀ p ∈ l, In p.1) (k : ℕ) : In ((l.map Prod.fst).getD k 0) := by
  by_cases hk : k < (l.map Prod.fst).length
  · rw [List.getD_eq_getElem _ _ hk]
    obtain ⟨p, hp, he⟩ := List.mem_map.1 (List.getElem_mem hk)
    rw [← he]
    exact h p hp
  · rw [List.getD_eq_default _ _ (by omega)]
    constructor <;> norm_num

private theorem minPair_mem : ∀ {l : List (ℤ × ℚ)} {p : ℤ × ℚ}, minPair l = some p → p ∈ l := by
  intro l p h
  have hne : l ≠ [] := by rintro rfl; simp [minPair] at h
  obtain ⟨q, h1, h2, -⟩ := minPair_best l hne
  rw [h1] at h
  cases h
  exact h2

private theorem call_inv {s : Searcher} {r : Option (ℤ × ℚ)} (h : Inv s) (hr : ∀ p, r = some p → In p.1) :
    Inv (call s r).2 ∧ ∀ x, ((call s r).1 = .next x ∨ ∃ m, (call s r).1 = .best x m) → In x := by
  have h' : ∃ s', Inv s' ∧ call s r = (match s'.searchStart with
      | x :: l => (.next x, { s' with searchStart := l })
      | [] => finish s') := by
    cases r with
    | none => exact ⟨s, h, rfl⟩
    | some p =>
      refine ⟨{ s with results := s.results ++ [p] }, ⟨h.1, h.2.1, h.2.2.1, ?_⟩, rfl⟩
      intro q hq
      rcases List.mem_append.1 hq with hq | hq
      · exact h.2.2.2 q hq
      · rw [List.mem_singleton.1 hq]
        exact hr p rfl
  obtain ⟨s', ⟨i1, i2, i3, i4⟩, e⟩ := h'
  rw [e]
  cases hs : s'.searchStart with
  | cons x l =>
    rw [hs] at i3
    refine ⟨⟨i1, i2, fun y hy => i3 y (List.mem_cons_of_mem _ hy), i4⟩, ?_⟩
    rintro y (hy | ⟨m, hy⟩)
    · cases hy
      exact i3 _ List.mem_cons_self
    · cases hy
  | nil =>
    show Inv (finish s').2 ∧ _
    unfold finish
    cases hm : minPair s'.results with
    | none =>
      refine ⟨⟨i1, i2, i3, i4⟩, ?_⟩
      rintro y (hy | ⟨m, hy⟩) <;> cases hy
    | some p =>
      obtain ⟨v, m⟩ := p
      have hv := i4 _ (minPair_mem hm)
      have g1 := getD_in i4 ((s'.results.map Prod.fst).idxOf v - 1)
      have g2 := getD_in i4 (min ((s'.results.map Prod.fst).length - 1) ((s'.results.map Prod.fst).idxOf v + 1))
      simp only
      split
      · refine ⟨⟨g1, g2, i3, i4⟩, ?_⟩
        rintro y (hy | ⟨m, hy⟩) <;> cases hy
        exact hv
      · have hi := startRange_inv (s := { s' with
          low := (s'.results.map Prod.fst).getD ((s'.results.map Prod.fst).idxOf v - 1) 0,
          high := (s'.results.map Prod.fst).getD
            (min ((s'.results.map Prod.fst).length - 1) ((s'.results.map Prod.fst).idxOf v + 1)) 0 }) g1 g2
        obtain ⟨j1, j2, j3, j4⟩ := hi
        split
        · rename_i x l hx
          rw [hx] at j3
          refine ⟨⟨j1, j2, fun y hy => j3 y (List.mem_cons_of_mem _ hy), j4⟩, ?_⟩
          rintro y (hy | ⟨m, hy⟩) <;> cases hy
          exact j3 _ List.mem_cons_self
        · refine ⟨⟨j1, j2, j3, j4⟩, ?_⟩
          rintro y (hy | ⟨m, hy⟩) <;> cases hy

private theorem loop_in : ∀ (ms : List (Option ℚ)) (s : Searcher) (x : ℤ), Inv s → In x →
    (∀ y ∈ (loop s x ms).1, In y) ∧ ∀ b m, (loop s x ms).2 = .found b m → In b
  | [], s, x, _, _ => by
    refine ⟨fun y hy => absurd hy List.not_mem_nil, fun b m h => by cases h⟩
  | none :: ms, s, x, hs, hx => by
    obtain ⟨h1, h2⟩ := call_inv (r := none) hs (by rintro p ⟨⟩)
    unfold loop
    rcases hc : call s none with ⟨o, s'⟩
    rw [hc] at h1 h2
    cases o with
    | next y =>
      obtain ⟨g1, g2⟩ := loop_in ms s' y h1 (h2 y (Or.inl rfl))
      refine ⟨?_, g2⟩
      intro z hz
      rcases List.mem_cons.1 hz with rfl | hz
      · exact hx
      · exact g1 z hz
    | best b m =>
      refine ⟨fun z hz => by rw [List.mem_singleton.1 hz]; exact hx, fun b m h => by cases h⟩
    | valueError =>
      refine ⟨fun z hz => by rw [List.mem_singleton.1 hz]; exact hx, fun b m h => by cases h⟩
  | some q :: ms, s, x, hs, hx => by
    obtain ⟨h1, h2⟩ := call_inv (r := some (x, q)) hs (by rintro p ⟨⟩; exact hx)
    unfold loop
    rcases hc : call s (some (x, q)) with ⟨o, s'⟩
    rw [hc] at h1 h2
    cases o with
    | next y =>
      obtain ⟨g1, g2⟩ := loop_in ms s' y h1 (h2 y (Or.inl rfl))
      refine ⟨?_, g2⟩
      intro z hz
      rcases List.mem_cons.1 hz with rfl | hz
      · exact hx
      · exact g1 z hz
    | best b m =>
      refine ⟨fun z hz => by rw [List.mem_singleton.1 hz]; exact hx, fun b' m' h => ?_⟩
      cases h
      exact h2 b (Or.inr ⟨m, rfl⟩)
    | valueError =>
      refine ⟨fun z hz => by rw [List.mem_singleton.1 hz]; exact hx, fun b m h => by cases h⟩

/-- **C109, what is tried.** Whichever measurements fail, every value that is tried or found is between -248 and
248, so each BCT that is tried fits into a byte. -/
theorem C109_tried (ms : List (Option ℚ)) :
    (∀ x ∈ (findBest ms).1, |x| ≤ 248) ∧ ∀ b m, (findBest ms).2 = .found b m → |b| ≤ 248 := by
  obtain ⟨l, h0, h1, -⟩ := new_ladder
  have hin : ∀ x ∈ -248 :: l, In x := by
    rw [h1]
    intro x hx
    obtain ⟨i, hi, rfl⟩ := mem_ladder.1 hx
    constructor <;> omega
  have hi : Inv ⟨-248, 248, l, []⟩ := by
    refine ⟨⟨by norm_num, by norm_num⟩, ⟨by norm_num, by norm_num⟩, fun x hx => hin x (List.mem_cons_of_mem _ hx), ?_⟩
    intro p hp
    exact absurd hp List.not_mem_nil
  have he : findBest ms = loop ⟨-248, 248, l, []⟩ (-248) ms := by
    unfold findBest call
    simp only [h0]
  obtain ⟨g1, g2⟩ := loop_in ms _ _ hi (hin _ List.mem_cons_self)
  rw [he]
  exact ⟨fun x hx => abs_le.2 (g1 x hx), fun b m h => abs_le.2 (g2 b m h)⟩

/-- **C109, the end.** However the search ends, the number of poles and the limits of the position are those from
before, and the settings are saved only if a value was found. -/
theorem C109_restored (c : Conf) (ms : List (Option ℚ)) (h : (findBest ms).2 ≠ .running) :
    (run c ms).1.poles = c.poles ∧ (run c ms).1.positionMin = c.positionMin ∧
      (run c ms).1.positionMax = c.positionMax ∧
      ((run c ms).2 = true ↔ ∃ x m, (findBest ms).2 = .found x m) := by
  unfold run
  cases hr : (findBest ms).2 with
  | found x m => simp [hr]
  | valueError => simp [hr]
  | typeError => simp [hr]
  | running => exact absurd hr h

/-- **C109, what is saved (partial).** If the best value is positive, the settings are those with which it was
measured.  Missing: the Y axis, see `C109_sign_refuted`. -/
theorem C109_saved_partial {c : Conf} {ms : List (Option ℚ)} {x : ℤ} {m : ℚ} (h : (findBest ms).2 = .found x m)
    (hx : 0 < x) : (run c ms).1 = tried c x ∧ (tried c x).trim = axis x := by
  unfold run
  simp only [h, tried, abs_of_pos hx, if_pos hx, axis, gt_iff_lt]
  trivial

/-- the hypotheses of `C109_saved_partial` and of `C109_restored`. -/
example : (findBest ((ladder (-248) 31 17 ++ ladder 62 3 21).map fun x =>
    some (if x ≤ 100 then 100 - (x : ℚ) else (x : ℚ) - 100))).2 = .found 101 1 := by decide +kernel

/-! ## violations -/

/-- a valley at -100. -/
private def valleyY : List (Option ℚ) :=
  (ladder (-248) 31 17 ++ ladder (-124) 3 21).map fun x => some (|(x : ℚ) + 100|)

/-- **C109 is violated: for the Y axis** the value is sent with its sign, which no byte has. -/
theorem C109_sign_refuted :
    (findBest valleyY).2 = .found (-100) 0 ∧ run ⟨0, 0, 14, none, none⟩ valleyY = (⟨2, -100, 14, none, none⟩, true) := by
  decide +kernel

/-- **C109 is violated: a better value is forgotten.** The best value of the first round is measured again only
by chance; here the result is worse than it. -/
theorem C109_forgotten_refuted :
    (findBest ((List.range 38).map fun i => some (if i = 8 then 1 else 2))).2 = .found (-31) 2 := by
  decide +kernel

/-- **C109 is violated: one failed measurement** at the end of the search ends it with a TypeError. -/
theorem C109_failed_refuted :
    (findBest ((List.range 33).map fun i : ℕ => if i = 32 then none else some (i : ℚ))).2 = .typeError ∧
    (findBest ((List.range 33).map fun i : ℕ => some (i : ℚ))).2 = .found (-248) 17 := by
  decide +kernel

/-- **C109 is violated: an encoder that cannot be read** ends the search with a ValueError and leaves the last
trimming that was tried. -/
theorem C109_left_refuted :
    (findBest (List.replicate 17 none)).2 = .valueError ∧
    run ⟨1, 50, 14, none, none⟩ (List.replicate 17 none) = (⟨1, 248, 14, none, none⟩, false) := by
  decide +kernel

end Verif.Tool.Bct
