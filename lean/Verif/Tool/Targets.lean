import Verif.Can.Model
import Mathlib.Tactic.Ring

/-!
# moteus_tool: target lists and serial numbers

Model of lib/python/moteus/moteus_tool.py:532-559, with the proofs of C25 and
C26.  Strings are lists of ASCII codes; Python's `int` also accepts other
Unicode digits and spaces, and refuses more than 4300 digits; this is not
modelled.
-/

namespace Verif.Tool

open Verif

/-! ## Model -/

/-- `text.split(sep)` for a single character. -/
def splitOn (sep : UInt8) : Bytes → List Bytes
  | [] => [[]]
  | c :: cs =>
    if c = sep then [] :: splitOn sep cs
    else match splitOn sep cs with
      | [] => [[c]]
      | t :: ts => (c :: t) :: ts

/-- The digits of `int(text)`: single underscores are accepted between
digits; `prev` says whether the character before was a digit. -/
def decDigitsOf (prev : Bool) (acc : Nat) : Bytes → Option Nat
  | [] => if prev then some acc else none
  | c :: cs =>
    if c = 95 then (if prev then decDigitsOf false acc cs else none)
    else if 48 ≤ c.toNat ∧ c.toNat ≤ 57 then decDigitsOf true (acc * 10 + (c.toNat - 48)) cs
    else none

/-- `int(text)`, `none` is `ValueError`. -/
def pyInt (text : Bytes) : Option Int :=
  let s := ((text.dropWhile Can.isSpace).reverse.dropWhile Can.isSpace).reverse
  let r := Can.pySign s
  match decDigitsOf false 0 r.2 with
  | none => none
  | some n => some (if r.1 then -(n : Int) else n)

/-- `range(first, last)` -/
def pyRange (first last : Int) : List Int :=
  (List.range (last - first).toNat).map fun (i : Nat) => first + i

/-- moteus_tool.py:538-542, the ids of one field. -/
def expandField (field : Bytes) : Option (List Int) :=
  if 45 ∈ field then
    match splitOn 45 field with
    | [a, b] =>
      match pyInt a, pyInt b with
      | some first, some last => some (pyRange first (last + 1))
      | _, _ => none
    | _ => none
  else (pyInt field).map fun n => [n]

/-- The sorted list of a set, with one element added. -/
def insertId (x : Int) : List Int → List Int
  | [] => [x]
  | y :: ys => if x < y then x :: y :: ys else if x = y then y :: ys else y :: insertId x ys

/-- `result |= set(...)` followed (at the end) by `sorted(list(result))`. -/
def addIds (s : List Int) (l : List Int) : List Int := l.foldl (fun s x => insertId x s) s

/-- The two nested loops of `expand_targets`. -/
def expandFields (s : List Int) : List Bytes → Option (List Int)
  | [] => some s
  | f :: fs =>
    match expandField f with
    | none => none
    | some l => expandFields (addIds s l) fs

/-- moteus_tool.py:532-544 `expand_targets` -/
def expandTargets (targets : List Bytes) : Option (List Int) :=
  expandFields [] (targets.flatMap (splitOn 44))

/-- moteus_tool.py:549 -/
def base64Alphabet : List Char :=
  "ABCDEFGHIJKLMNOPQRSTUVWXYZabcdefghijklmnopqrstuvwxyz0123456789+/".toList

/-- The loop of `_base64_serial_number` with `k` turns left; the digits are
stored from the end. -/
def base64Loop : Nat → Nat → List Char → List Char
  | 0, _, acc => acc
  | k + 1, n, acc => base64Loop k (n / 64) (base64Alphabet.getD (n % 64) 'A' :: acc)

/-- moteus_tool.py:547-559 `_base64_serial_number` -/
def base64Serial (s1 s2 s3 : Nat) : List Char :=
  base64Loop 16 ((s1 <<< 64) ||| (s2 <<< 32) ||| s3) []

/-! ## Specification of target lists -/

/-- Decimal notation. -/
def decimal (n : Nat) : Bytes :=
  if n < 10 then [UInt8.ofNat (48 + n)] else decimal (n / 10) ++ [UInt8.ofNat (48 + n % 10)]
termination_by n
decreasing_by omega

/-- A number as a user may write it: spaces, leading zeros, digits, spaces. -/
structure Num where
  spacesBefore : Nat := 0
  zeros : Nat := 0
  value : Nat
  spacesAfter : Nat := 0

def Num.text (n : Num) : Bytes :=
  List.replicate n.spacesBefore 32 ++ (List.replicate n.zeros 48 ++ decimal n.value) ++
    List.replicate n.spacesAfter 32

/-- A term of a specification. -/
inductive Term
  | one (n : Num)
  | range (first last : Num)

def Term.text : Term → Bytes
  | .one n => n.text
  | .range a b => a.text ++ [45] ++ b.text

def Term.Names : Term → Int → Prop
  | .one n, x => x = n.value
  | .range a b, x => (a.value : Int) ≤ x ∧ x ≤ b.value

/-- Terms separated by commas (one command line argument). -/
def commaText : List Term → Bytes
  | [] => []
  | [t] => t.text
  | t :: ts => t.text ++ [44] ++ commaText ts

/-! ## Sets -/

theorem mem_insertId (x y : Int) (s : List Int) : y ∈ insertId x s ↔ y = x ∨ y ∈ s := by
  induction s with
  | nil => simp [insertId]
  | cons a s ih =>
    unfold insertId
    split
    · simp
    · split
      · next h => subst h; simp
      · simp only [List.mem_cons, ih]; tauto

theorem pairwise_insertId (x : Int) (s : List Int) (h : s.Pairwise (· < ·)) :
    (insertId x s).Pairwise (· < ·) := by
  induction s with
  | nil => simp [insertId]
  | cons a s ih =>
    have ha := List.pairwise_cons.1 h
    unfold insertId
    split
    · next hx =>
      refine List.pairwise_cons.2 ⟨fun b hb => ?_, h⟩
      rcases List.mem_cons.1 hb with rfl | hb
      · exact hx
      · exact lt_trans hx (ha.1 b hb)
    · split
      · exact h
      · refine List.pairwise_cons.2 ⟨fun b hb => ?_, ih ha.2⟩
        rcases (mem_insertId x b s).1 hb with rfl | hb
        · omega
        · exact ha.1 b hb

theorem mem_addIds (l s : List Int) (y : Int) : y ∈ addIds s l ↔ y ∈ l ∨ y ∈ s := by
  induction l generalizing s with
  | nil => simp [addIds]
  | cons a l ih =>
    have := ih (insertId a s)
    simp only [addIds, List.foldl_cons] at this ⊢
    rw [this, mem_insertId, List.mem_cons]; tauto

theorem pairwise_addIds (l s : List Int) (h : s.Pairwise (· < ·)) :
    (addIds s l).Pairwise (· < ·) := by
  induction l generalizing s with
  | nil => exact h
  | cons a l ih => exact ih _ (pairwise_insertId a s h)

theorem expandFields_spec (fs : List Bytes) (s : List Int) (h : s.Pairwise (· < ·)) :
    (∀ l, expandFields s fs = some l → l.Pairwise (· < ·) ∧
      ∀ x, x ∈ l ↔ x ∈ s ∨ ∃ f ∈ fs, ∃ k, expandField f = some k ∧ x ∈ k) ∧
    (expandFields s fs = none ↔ ∃ f ∈ fs, expandField f = none) := by
  induction fs generalizing s with
  | nil =>
    refine ⟨fun l hl => ?_, by simp [expandFields]⟩
    simp only [expandFields, Option.some.injEq] at hl
    subst hl; exact ⟨h, by simp⟩
  | cons f fs ih =>
    unfold expandFields
    cases hf : expandField f with
    | none => simp [hf]
    | some k =>
      obtain ⟨i1, i2⟩ := ih (addIds s k) (pairwise_addIds k s h)
      refine ⟨fun l hl => ?_, ?_⟩
      · obtain ⟨a, b⟩ := i1 l hl
        refine ⟨a, fun x => ?_⟩
        rw [b x, mem_addIds]
        constructor
        · rintro ((hx | hx) | ⟨g, hg, hx⟩)
          · exact Or.inr ⟨f, by simp, k, hf, hx⟩
          · exact Or.inl hx
          · exact Or.inr ⟨g, by simp [hg], hx⟩
        · rintro (hx | ⟨g, hg, k', hk', hx⟩)
          · exact Or.inl (Or.inr hx)
          · rcases List.mem_cons.1 hg with rfl | hg
            · rw [hf] at hk'
              cases hk'
              exact Or.inl (Or.inl hx)
            · exact Or.inr ⟨g, hg, k', hk', hx⟩
      · show expandFields (addIds s k) fs = none ↔ _
        rw [i2]; simp [hf]

theorem mem_pyRange (a b x : Int) : x ∈ pyRange a b ↔ a ≤ x ∧ x < b := by
  unfold pyRange
  simp only [List.mem_map, List.mem_range]
  constructor
  · rintro ⟨i, hi, rfl⟩; omega
  · rintro ⟨h1, h2⟩; exact ⟨(x - a).toNat, by omega, by omega⟩

/-! ## Text -/

theorem splitOn_ne_nil (sep : UInt8) (t : Bytes) : splitOn sep t ≠ [] := by
  cases t with
  | nil => simp [splitOn]
  | cons c cs =>
    unfold splitOn
    split
    · simp
    · split <;> simp

theorem splitOn_none (sep : UInt8) (t : Bytes) (h : sep ∉ t) : splitOn sep t = [t] := by
  induction t with
  | nil => rfl
  | cons c cs ih =>
    have h1 : c ≠ sep := fun e => h (by simp [e])
    have h2 : sep ∉ cs := fun e => h (by simp [e])
    unfold splitOn
    rw [if_neg h1, ih h2]

theorem splitOn_append (sep : UInt8) (a b : Bytes) (h : sep ∉ a) :
    splitOn sep (a ++ [sep] ++ b) = a :: splitOn sep b := by
  induction a with
  | nil => simp [splitOn]
  | cons c cs ih =>
    have h1 : c ≠ sep := fun e => h (by simp [e])
    have h2 : sep ∉ cs := fun e => h (by simp [e])
    have := ih h2
    simp only [List.append_assoc, List.cons_append, List.nil_append] at this ⊢
    rw [splitOn, if_neg h1, this]

theorem decimal_digit (n : Nat) : ∀ c ∈ decimal n, 48 ≤ c.toNat ∧ c.toNat ≤ 57 := by
  induction n using decimal.induct with
  | case1 n h =>
    rw [decimal, if_pos h]
    intro c hc
    simp only [List.mem_singleton] at hc
    subst hc
    rw [UInt8.toNat_ofNat_of_lt' (by omega : 48 + n < 256)]
    omega
  | case2 n h ih =>
    rw [decimal, if_neg h]
    intro c hc
    rcases List.mem_append.1 hc with hc | hc
    · exact ih c hc
    · simp only [List.mem_singleton] at hc
      subst hc
      rw [UInt8.toNat_ofNat_of_lt' (by omega : 48 + n % 10 < 256)]
      omega

theorem decimal_ne_nil (n : Nat) : decimal n ≠ [] := by
  rw [decimal]; split <;> simp

/-- Value of a digit string after a prefix of value `acc`. -/
theorem decDigitsOf_append (a b : Bytes) (prev : Bool) (acc : Nat)
    (h : ∀ c ∈ a, 48 ≤ c.toNat ∧ c.toNat ≤ 57) (ha : a ≠ []) :
    decDigitsOf prev acc (a ++ b) =
      decDigitsOf true (a.foldl (fun acc c => acc * 10 + (c.toNat - 48)) acc) b := by
  induction a generalizing prev acc with
  | nil => exact absurd rfl ha
  | cons c cs ih =>
    have hc := h c (by simp)
    have h95 : c ≠ 95 := by rintro rfl; revert hc; decide
    rw [List.cons_append, decDigitsOf, if_neg h95, if_pos hc]
    by_cases hcs : cs = []
    · subst hcs; rfl
    · rw [ih true _ (fun c hc => h c (by simp [hc])) hcs]; rfl

theorem foldl_zeros (k : Nat) :
    (List.replicate k (48 : UInt8)).foldl (fun acc c => acc * 10 + (c.toNat - 48)) 0 = 0 := by
  induction k with
  | zero => rfl
  | succ k ih => rw [List.replicate_succ, List.foldl_cons]; exact ih

theorem foldl_decimal (n : Nat) :
    (decimal n).foldl (fun acc c => acc * 10 + (c.toNat - 48)) 0 = n := by
  induction n using decimal.induct with
  | case1 n h =>
    rw [decimal, if_pos h, List.foldl_cons, List.foldl_nil,
      UInt8.toNat_ofNat_of_lt' (by omega : 48 + n < 256)]
    omega
  | case2 n h ih =>
    rw [decimal, if_neg h, List.foldl_append, ih, List.foldl_cons, List.foldl_nil,
      UInt8.toNat_ofNat_of_lt' (by omega : 48 + n % 10 < 256)]
    omega

/-- The digits of a number. -/
def Num.digits (n : Num) : Bytes := List.replicate n.zeros 48 ++ decimal n.value

theorem Num.digits_digit (n : Num) : ∀ c ∈ n.digits, 48 ≤ c.toNat ∧ c.toNat ≤ 57 := by
  intro c hc
  rcases List.mem_append.1 hc with hc | hc
  · have := List.eq_of_mem_replicate hc; subst this; decide
  · exact decimal_digit _ c hc

theorem Num.digits_ne_nil (n : Num) : n.digits ≠ [] := by
  simp [Num.digits, decimal_ne_nil]

theorem Num.decDigits (n : Num) : decDigitsOf false 0 n.digits = some n.value := by
  have := decDigitsOf_append n.digits [] false 0 n.digits_digit n.digits_ne_nil
  rw [List.append_nil] at this
  rw [this, Num.digits, List.foldl_append, foldl_zeros, foldl_decimal]
  rfl

theorem digit_not_space (c : UInt8) (h : 48 ≤ c.toNat ∧ c.toNat ≤ 57) : Can.isSpace c = false := by
  have : ∀ c : Fin 256, 48 ≤ c.val ∧ c.val ≤ 57 → Can.isSpace (UInt8.ofNat c.val) = false := by
    decide +kernel
  have h2 := this ⟨c.toNat, c.toNat_lt⟩ h
  simpa using h2

theorem dropWhile_spaces (k : Nat) (d : Bytes) (hd : ∀ c ∈ d, Can.isSpace c = false) :
    (List.replicate k 32 ++ d).dropWhile Can.isSpace = d := by
  induction k with
  | zero =>
    cases d with
    | nil => rfl
    | cons c cs => simp [hd c (by simp)]
  | succ k ih =>
    rw [List.replicate_succ, List.cons_append, List.dropWhile_cons, if_pos (by decide), ih]

theorem dropWhile_spaces' (k : Nat) (d e : Bytes) (hd : ∀ c ∈ d, Can.isSpace c = false)
    (hne : d ≠ []) : (List.replicate k 32 ++ (d ++ e)).dropWhile Can.isSpace = d ++ e := by
  induction k with
  | zero =>
    cases d with
    | nil => exact absurd rfl hne
    | cons c cs => simp [hd c (by simp)]
  | succ k ih =>
    rw [List.replicate_succ, List.cons_append, List.dropWhile_cons, if_pos (by decide), ih]

theorem pySign_digit (d : Bytes) (h : ∀ c ∈ d, 48 ≤ c.toNat ∧ c.toNat ≤ 57) :
    Can.pySign d = (false, d) := by
  cases d with
  | nil => rfl
  | cons c cs =>
    have hc := h c (by simp)
    have h1 : c ≠ 45 := by rintro rfl; revert hc; decide
    have h2 : c ≠ 43 := by rintro rfl; revert hc; decide
    unfold Can.pySign
    split
    · next e => exact absurd (List.cons.inj e).1 h1
    · next e => exact absurd (List.cons.inj e).1 h2
    · rfl

theorem Num.pyInt (n : Num) : pyInt n.text = some (n.value : Int) := by
  have hs : ∀ c ∈ n.digits, Can.isSpace c = false :=
    fun c hc => digit_not_space c (n.digits_digit c hc)
  have e : ((n.text.dropWhile Can.isSpace).reverse.dropWhile Can.isSpace).reverse = n.digits := by
    have : n.text = List.replicate n.spacesBefore 32 ++
        (n.digits ++ List.replicate n.spacesAfter 32) := by
      simp [Num.text, Num.digits, List.append_assoc]
    rw [this, dropWhile_spaces' _ _ _ hs n.digits_ne_nil, List.reverse_append,
      List.reverse_replicate, dropWhile_spaces _ _ (by simpa using hs), List.reverse_reverse]
  unfold Tool.pyInt
  simp only [e, pySign_digit _ n.digits_digit, n.decDigits]
  rfl

theorem Num.not_mem (n : Num) (c : UInt8) (h : c = 44 ∨ c = 45) : c ∉ n.text := by
  intro hc
  simp only [Num.text, List.mem_append, List.mem_replicate] at hc
  rcases hc with (⟨_, hc⟩ | (⟨_, hc⟩ | hc)) | ⟨_, hc⟩
  · subst hc; revert h; decide
  · subst hc; revert h; decide
  · have := decimal_digit _ c hc
    rcases h with rfl | rfl <;> revert this <;> decide
  · subst hc; revert h; decide

theorem Term.no_comma (t : Term) : (44 : UInt8) ∉ t.text := by
  cases t with
  | one n => exact n.not_mem 44 (Or.inl rfl)
  | range a b =>
    simp only [Term.text, List.mem_append, List.mem_singleton]
    rintro ((h | h) | h)
    · exact a.not_mem 44 (Or.inl rfl) h
    · revert h; decide
    · exact b.not_mem 44 (Or.inl rfl) h

theorem splitOn_commaText (ts : List Term) (h : ts ≠ []) :
    splitOn 44 (commaText ts) = ts.map Term.text := by
  induction ts with
  | nil => exact absurd rfl h
  | cons t ts ih =>
    cases ts with
    | nil => exact splitOn_none _ _ t.no_comma
    | cons u us =>
      show splitOn 44 (t.text ++ [44] ++ commaText (u :: us)) = _
      rw [splitOn_append _ _ _ t.no_comma, ih (by simp)]; rfl

theorem Term.expand (t : Term) :
    ∃ k, expandField t.text = some k ∧ ∀ x, x ∈ k ↔ t.Names x := by
  cases t with
  | one n =>
    refine ⟨[(n.value : Int)], ?_, fun x => by simp [Term.Names]⟩
    unfold expandField
    rw [if_neg (show ¬ _ ∈ (Term.one n).text from n.not_mem 45 (Or.inr rfl))]
    show (Tool.pyInt n.text).map _ = _
    rw [n.pyInt]; rfl
  | range a b =>
    refine ⟨pyRange a.value (b.value + 1), ?_, fun x => ?_⟩
    · unfold expandField
      rw [if_pos (by simp [Term.text])]
      show (match splitOn 45 (a.text ++ [45] ++ b.text) with
        | [a, b] => _
        | _ => none) = _
      rw [splitOn_append _ _ _ (a.not_mem 45 (Or.inr rfl)),
        splitOn_none _ _ (b.not_mem 45 (Or.inr rfl))]
      simp only [a.pyInt, b.pyInt]
    · rw [mem_pyRange]
      simp only [Term.Names]; omega

/-! ## C25 -/

/-- C25: a specification given by any number of arguments, each a comma
separated list of numbers and ranges, is expanded to the strictly increasing
list of exactly the named ids. -/
theorem C25_expand (args : List (List Term)) (h : ∀ ts ∈ args, ts ≠ []) :
    ∃ l, expandTargets (args.map commaText) = some l ∧ l.Pairwise (· < ·) ∧
      ∀ x, x ∈ l ↔ ∃ ts ∈ args, ∃ t ∈ ts, t.Names x := by
  have hs : (args.map commaText).flatMap (splitOn 44) = args.flatMap (·.map Term.text) := by
    induction args with
    | nil => rfl
    | cons ts args ih =>
      rw [List.map_cons, List.flatMap_cons, List.flatMap_cons,
        splitOn_commaText ts (h ts (by simp)), ih fun t ht => h t (by simp [ht])]
  obtain ⟨h1, h2⟩ := expandFields_spec (args.flatMap (·.map Term.text)) [] List.Pairwise.nil
  unfold expandTargets
  rw [hs]
  cases he : expandFields [] (args.flatMap (·.map Term.text)) with
  | none =>
    exfalso
    obtain ⟨f, hf, hn⟩ := h2.1 he
    obtain ⟨ts, _, hf⟩ := List.mem_flatMap.1 hf
    obtain ⟨t, _, rfl⟩ := List.mem_map.1 hf
    obtain ⟨k, hk, _⟩ := t.expand
    rw [hk] at hn; cases hn
  | some l =>
    obtain ⟨a, b⟩ := h1 l he
    refine ⟨l, rfl, a, fun x => ?_⟩
    rw [b x]
    constructor
    · rintro (hx | ⟨f, hf, k, hk, hx⟩)
      · cases hx
      · obtain ⟨ts, hts, hf⟩ := List.mem_flatMap.1 hf
        obtain ⟨t, ht, rfl⟩ := List.mem_map.1 hf
        obtain ⟨k', hk', hx'⟩ := t.expand
        rw [hk] at hk'; cases hk'
        exact ⟨ts, hts, t, ht, (hx' x).1 hx⟩
    · rintro ⟨ts, hts, t, ht, hx⟩
      obtain ⟨k, hk, hx'⟩ := t.expand
      exact Or.inr ⟨t.text, List.mem_flatMap.2 ⟨ts, hts, List.mem_map.2 ⟨t, ht, rfl⟩⟩, k, hk,
        (hx' x).2 hx⟩

/-- Two arguments: "1, 3-5" and "4,002". -/
example : expandTargets
    [commaText [.one ⟨0, 0, 1, 0⟩, .range ⟨1, 0, 3, 0⟩ ⟨0, 0, 5, 0⟩],
     commaText [.one ⟨0, 0, 4, 0⟩, .one ⟨0, 2, 2, 0⟩]] = some [1, 2, 3, 4, 5] := by decide +kernel

/-- C25, arbitrary text: whatever the arguments are, a result has every id
once in increasing order and consists of the ids of the single fields; there
is an exception exactly if one of the fields has no meaning. -/
theorem C25_expand_any (args : List Bytes) :
    (∀ l, expandTargets args = some l → l.Pairwise (· < ·) ∧
      ∀ x, x ∈ l ↔ ∃ a ∈ args, ∃ f ∈ splitOn 44 a, ∃ k, expandField f = some k ∧ x ∈ k) ∧
    (expandTargets args = none ↔ ∃ a ∈ args, ∃ f ∈ splitOn 44 a, expandField f = none) := by
  obtain ⟨h1, h2⟩ := expandFields_spec (args.flatMap (splitOn 44)) [] List.Pairwise.nil
  refine ⟨fun l hl => ⟨(h1 l hl).1, fun x => ?_⟩, ?_⟩
  · rw [(h1 l hl).2 x]
    simp only [List.mem_flatMap, List.not_mem_nil, false_or]
    constructor
    · rintro ⟨f, ⟨a, ha, hf⟩, r⟩; exact ⟨a, ha, f, hf, r⟩
    · rintro ⟨a, ha, f, hf, r⟩; exact ⟨f, ⟨a, ha, hf⟩, r⟩
  · show expandFields [] _ = none ↔ _
    rw [h2]
    simp only [List.mem_flatMap]
    constructor
    · rintro ⟨f, ⟨a, ha, hf⟩, r⟩; exact ⟨a, ha, f, hf, r⟩
    · rintro ⟨a, ha, f, hf, r⟩; exact ⟨f, ⟨a, ha, hf⟩, r⟩

/-- C25: an argument with an empty field ("1,,2", a trailing comma, or an
empty argument) is refused. -/
theorem C25_empty_field (args : List Bytes) (h : ∃ a ∈ args, [] ∈ splitOn 44 a) :
    expandTargets args = none := by
  obtain ⟨a, ha, hf⟩ := h
  exact (C25_expand_any args).2.2 ⟨a, ha, [], hf, by decide⟩

example : expandTargets [[49, 44]] = none := C25_empty_field _ ⟨[49, 44], by simp, by decide⟩

/-- C25: a field with two or more minus signs is refused, so is one with an
empty side; in particular negative ids cannot be written. -/
theorem C25_negative (n : Num) : expandTargets [45 :: n.text] = none := by
  refine (C25_expand_any _).2.2 ⟨_, List.mem_singleton.2 rfl, 45 :: n.text, ?_, ?_⟩
  · rw [splitOn_none _ _ ?_]
    · simp
    · simp only [List.mem_cons, not_or]
      exact ⟨by decide, n.not_mem 44 (Or.inl rfl)⟩
  · unfold expandField
    rw [if_pos (by simp)]
    have : splitOn 45 (45 :: n.text) = [[], n.text] := by
      have := splitOn_append 45 [] n.text (by simp)
      rw [splitOn_none _ _ (n.not_mem 45 (Or.inr rfl))] at this
      exact this
    rw [this]; rfl

/-! ## C26 -/

theorem base64Loop_append (k n : Nat) (acc : List Char) :
    base64Loop k n acc = base64Loop k n [] ++ acc := by
  induction k generalizing n acc with
  | zero => rfl
  | succ k ih =>
    rw [base64Loop, base64Loop, ih, ih (n / 64) [_]]
    simp

theorem base64Loop_length (k n : Nat) (acc : List Char) :
    (base64Loop k n acc).length = k + acc.length := by
  induction k generalizing n acc with
  | zero => simp [base64Loop]
  | succ k ih => rw [base64Loop, ih, List.length_cons]; omega

theorem alphabet_inj : ∀ a < 64, ∀ b < 64,
    base64Alphabet.getD a 'A' = base64Alphabet.getD b 'A' → a = b := by decide +kernel

theorem base64Loop_inj (k a b : Nat) (h : base64Loop k a [] = base64Loop k b []) :
    a % 64 ^ k = b % 64 ^ k := by
  induction k generalizing a b with
  | zero => simp [Nat.mod_one]
  | succ k ih =>
    rw [base64Loop, base64Loop, base64Loop_append k, base64Loop_append k (b / 64)] at h
    obtain ⟨h1, h2⟩ := List.append_inj h (by simp [base64Loop_length])
    have h3 := alphabet_inj _ (Nat.mod_lt a (by decide)) _ (Nat.mod_lt b (by decide))
      (List.cons.inj h2).1
    have h4 := ih _ _ h1
    rw [Nat.pow_succ, Nat.mul_comm, Nat.mod_mul, Nat.mod_mul, h3, h4]

theorem serialNumber_eq (s1 s2 s3 : Nat) (h2 : s2 < 2 ^ 32) (h3 : s3 < 2 ^ 32) :
    (s1 <<< 64) ||| (s2 <<< 32) ||| s3 = s1 * 2 ^ 64 + s2 * 2 ^ 32 + s3 := by
  have e1 : (s1 <<< 64) ||| (s2 <<< 32) = s1 * 2 ^ 64 + s2 * 2 ^ 32 := by
    rw [← Nat.shiftLeft_add_eq_or_of_lt (by rw [Nat.shiftLeft_eq]; omega), Nat.shiftLeft_eq,
      Nat.shiftLeft_eq]
  have e2 : s1 * 2 ^ 64 + s2 * 2 ^ 32 = (s1 * 2 ^ 32 + s2) <<< 32 := by
    rw [Nat.shiftLeft_eq]; ring
  rw [e1, e2, ← Nat.shiftLeft_add_eq_or_of_lt h3]

/-- C26: different serial numbers are printed differently. -/
theorem C26_injective (s1 s2 s3 t1 t2 t3 : Nat)
    (hs : s1 < 2 ^ 32 ∧ s2 < 2 ^ 32 ∧ s3 < 2 ^ 32) (ht : t1 < 2 ^ 32 ∧ t2 < 2 ^ 32 ∧ t3 < 2 ^ 32)
    (h : base64Serial s1 s2 s3 = base64Serial t1 t2 t3) : s1 = t1 ∧ s2 = t2 ∧ s3 = t3 := by
  have := base64Loop_inj 16 _ _ h
  rw [serialNumber_eq _ _ _ hs.2.1 hs.2.2, serialNumber_eq _ _ _ ht.2.1 ht.2.2,
    Nat.mod_eq_of_lt (by omega), Nat.mod_eq_of_lt (by omega)] at this
  omega

/-- C26: a printed serial number has 16 characters of the alphabet. -/
theorem C26_form (s1 s2 s3 : Nat) :
    (base64Serial s1 s2 s3).length = 16 ∧ ∀ c ∈ base64Serial s1 s2 s3, c ∈ base64Alphabet := by
  refine ⟨by simp [base64Serial, base64Loop_length], ?_⟩
  have gen : ∀ k n acc, (∀ c ∈ acc, c ∈ base64Alphabet) →
      ∀ c ∈ base64Loop k n acc, c ∈ base64Alphabet := by
    intro k
    induction k with
    | zero => intro n acc h; exact h
    | succ k ih =>
      intro n acc h
      refine ih _ _ fun c hc => ?_
      rcases List.mem_cons.1 hc with rfl | hc
      · have : ∀ a < 64, base64Alphabet.getD a 'A' ∈ base64Alphabet := by decide +kernel
        exact this _ (Nat.mod_lt n (by decide))
      · exact h c hc
  exact gen 16 _ [] (by simp)

/-- C26: the printed form is the big endian base 64 notation of the 96 bit
number: the value read back digit by digit is the serial number. -/
theorem C26_value (s1 s2 s3 : Nat) (hs : s1 < 2 ^ 32 ∧ s2 < 2 ^ 32 ∧ s3 < 2 ^ 32) :
    (base64Serial s1 s2 s3).foldl (fun acc c => acc * 64 + base64Alphabet.idxOf c) 0 =
      s1 * 2 ^ 64 + s2 * 2 ^ 32 + s3 := by
  have dig : ∀ a < 64, base64Alphabet.idxOf (base64Alphabet.getD a 'A') = a := by decide +kernel
  have gen : ∀ k n, (base64Loop k n []).foldl
      (fun acc c => acc * 64 + base64Alphabet.idxOf c) 0 = n % 64 ^ k := by
    intro k
    induction k with
    | zero => intro n; simp [base64Loop, Nat.mod_one]
    | succ k ih =>
      intro n
      rw [base64Loop, base64Loop_append, List.foldl_append, ih, List.foldl_cons, List.foldl_nil,
        dig _ (Nat.mod_lt n (by decide)), Nat.pow_succ, Nat.mul_comm (64 ^ k), Nat.mod_mul]
      omega
  rw [base64Serial, gen, serialNumber_eq _ _ _ hs.2.1 hs.2.2, Nat.mod_eq_of_lt (by omega)]

example : base64Serial 0 0 1 ≠ base64Serial 0 1 0 := by decide +kernel

/-! ## The grammar of numbers -/

/-- Decimal digits with single underscores between them. -/
inductive DecBody : Bytes → List Nat → Prop
  | one (d : Nat) (h : d < 10) : DecBody [UInt8.ofNat (48 + d)] [d]
  | digit (d : Nat) (h : d < 10) {t ds} : DecBody t ds → DecBody (UInt8.ofNat (48 + d) :: t) (d :: ds)
  | sep (d : Nat) (h : d < 10) {t ds} : DecBody t ds →
      DecBody (UInt8.ofNat (48 + d) :: 95 :: t) (d :: ds)

theorem decDigitsOf_digit (p : Bool) (acc d : Nat) (h : d < 10) (t : Bytes) :
    decDigitsOf p acc (UInt8.ofNat (48 + d) :: t) = decDigitsOf true (acc * 10 + d) t := by
  have e : (UInt8.ofNat (48 + d)).toNat = 48 + d := by rw [UInt8.toNat_ofNat']; omega
  have hn : UInt8.ofNat (48 + d) ≠ 95 := by
    intro hc
    have := congrArg UInt8.toNat hc
    rw [e] at this
    have h95 : (95 : UInt8).toNat = 95 := rfl
    omega
  rw [decDigitsOf, if_neg hn, e, if_pos (by omega), Nat.add_sub_cancel_left]

theorem decDigitsOf_complete {t : Bytes} {ds : List Nat} (h : DecBody t ds) (p : Bool) (acc : Nat) :
    decDigitsOf p acc t = some (ds.foldl (fun a d => a * 10 + d) acc) := by
  induction h generalizing p acc with
  | one d h => rw [decDigitsOf_digit _ _ _ h]; rfl
  | digit d h _ ih => rw [decDigitsOf_digit _ _ _ h, ih]; rfl
  | sep d h _ ih => rw [decDigitsOf_digit _ _ _ h, decDigitsOf, if_pos rfl, if_pos rfl, ih]; rfl

theorem decDigitsOf_sound (t : Bytes) : ∀ (acc n : Nat),
    (decDigitsOf false acc t = some n →
      ∃ ds, DecBody t ds ∧ n = ds.foldl (fun a d => a * 10 + d) acc) ∧
    (decDigitsOf true acc t = some n → (t = [] ∧ n = acc) ∨
      (∃ ds, DecBody t ds ∧ n = ds.foldl (fun a d => a * 10 + d) acc) ∨
      ∃ t' ds, t = 95 :: t' ∧ DecBody t' ds ∧ n = ds.foldl (fun a d => a * 10 + d) acc) := by
  induction t with
  | nil =>
    intro acc n
    constructor
    · intro h; simp [decDigitsOf] at h
    · intro h; simp [decDigitsOf] at h; exact Or.inl ⟨rfl, h.symm⟩
  | cons c t ih =>
    intro acc n
    have digit : 48 ≤ c.toNat ∧ c.toNat ≤ 57 →
        decDigitsOf true (acc * 10 + (c.toNat - 48)) t = some n →
        ∃ ds, DecBody (c :: t) ds ∧ n = ds.foldl (fun a d => a * 10 + d) acc := by
      intro hd h
      have hc : c = UInt8.ofNat (48 + (c.toNat - 48)) := by
        rw [show 48 + (c.toNat - 48) = c.toNat by omega, UInt8.ofNat_toNat]
      have hlt : c.toNat - 48 < 10 := by omega
      generalize c.toNat - 48 = d at *
      subst hc
      rcases (ih _ n).2 h with ⟨rfl, h⟩ | ⟨ds, h1, h2⟩ | ⟨t', ds, rfl, h1, h2⟩
      · exact ⟨[d], .one d hlt, by assumption⟩
      · exact ⟨d :: ds, .digit d hlt h1, by simp [h2]⟩
      · exact ⟨d :: ds, .sep d hlt h1, by simp [h2]⟩
    constructor
    · intro h
      rw [decDigitsOf] at h
      split at h
      · simp at h
      · split at h
        · next hd => exact digit hd h
        · cases h
    · intro h
      rw [decDigitsOf] at h
      split at h
      · next hc =>
        subst hc
        simp only [if_true] at h
        obtain ⟨ds, h1, h2⟩ := (ih _ n).1 h
        exact Or.inr (Or.inr ⟨t, ds, rfl, h1, h2⟩)
      · split at h
        · next hd => exact Or.inr (Or.inl (digit hd h))
        · cases h

/-- C25: the digits that are accepted in a target are exactly decimal digits
with single underscores between them, and mean their decimal value. -/
theorem C25_number_grammar (t : Bytes) (n : Nat) :
    decDigitsOf false 0 t = some n ↔
      ∃ ds, DecBody t ds ∧ n = ds.foldl (fun a d => a * 10 + d) 0 := by
  constructor
  · exact (decDigitsOf_sound t 0 n).1
  · rintro ⟨ds, h, rfl⟩
    exact decDigitsOf_complete h false 0

example : DecBody [49, 95, 50] [1, 2] := .sep 1 (by decide) (.one 2 (by decide))
example : decDigitsOf false 0 [95, 50] = none := by decide

end Verif.Tool
