import Verif.Fw.Commutation
import Verif.Fw.PositionNearest

/-!
# Histograms of the controller

Model of `d hstart` and `d hend` (`fw/board_debug.cc` 862-935) and of what is
gathered once in each millisecond (`PollMillisecond`, lines 137-144; `DoHistogram`,
lines 972-1076).  The scripts that measure cogging and the error of an encoder are
built on this.

Not modelled: the tokenizer; `strtof`, which is a parameter (so is what it finds
behind the end of the token); how the response is written.

Property C97.
-/

namespace Verif.Fw.Hist

open Verif.Float Verif.Fw

variable {A : Ar}

/-! ## Model -/

/-- `HistogramSource::Type` (`fw/board_debug.cc` 1155-1175) -/
inductive Kind
  | none | theta | compensated | filtered | offset | raw | velocity
  | currentD | currentQ | error | errorRate
deriving DecidableEq

/-- `IsCyclic` (`fw/board_debug.cc` 1177-1197) -/
def Kind.cyclic : Kind → Bool
  | .theta | .compensated | .filtered | .offset | .raw => true
  | _ => false

/-- `HistogramSource` (`fw/board_debug.cc` 1154-1206) -/
structure Source where
  kind : Kind
  derivative : Bool
  channel : ℕ
  old : Fl

/-- One entry of `motor_position.sources` with `cpr` of its configuration. -/
structure Encoder where
  compensated : Fl
  filtered : Fl
  offset : Fl
  raw : ℕ
  velocity : Fl
  cpr : ℕ

/-- What a sample may read: `encoders` has 3 entries. -/
structure Reading where
  theta : Fl
  encoders : List Encoder
  dA : Fl
  qA : Fl
  error : Fl
  errorRate : Fl

/-- The members of `BoardDebug::Impl` that belong to the histogram
(`fw/board_debug.cc` 1149-1215). -/
structure State where
  active : Bool
  ms : ℕ
  x : Source
  y : Source
  xmin : Fl
  xmax : Fl
  values : Fin 128 → Fl
  counts : Fin 128 → ℕ

/-- The letter of a source (`fw/board_debug.cc` 165-207). -/
def kindOf : Char → Option Kind
  | 't' => some .theta
  | 'c' => some .compensated
  | 'f' => some .filtered
  | 'o' => some .offset
  | 'r' => some .raw
  | 'v' => some .velocity
  | 'd' => some .currentD
  | 'q' => some .currentQ
  | 'e' => some .error
  | 'E' => some .errorRate
  | _ => none

/-- The flags of a source (lines 219-229): whether one is wrong, and the result. -/
def flags (s : Source) : List Char → Bool × Source
  | [] => (false, s)
  | c :: l => if c = 'd' then flags { s with derivative := true } l else (true, s)

/-- Lines 209-218: the digit of the encoder. -/
def digit (s : Source) : List Char → Bool × Source
  | [] => (false, s)
  | c :: l => if '0' ≤ c ∧ c ≤ '9' then flags { s with channel := c.toNat - '0'.toNat } l else flags s (c :: l)

/-- `ParseHistogramChannel` (`fw/board_debug.cc` 146-233); the first character has
been looked at by the caller. -/
def parseChannel (s0 : Source) (spec : List Char) : Bool × Source :=
  let s := { s0 with derivative := false }
  match spec with
  | _ :: c :: l =>
    match kindOf c with
    | some k => digit { s with kind := k } l
    | none => (true, s)
  | _ => (true, s)

/-- One option of `d hstart` (lines 882-906). -/
def option (strtof : List Char → Option Fl) (e : Bool × State) (o : List Char) : Bool × State :=
  match o with
  | 'x' :: _ => let p := parseChannel e.2.x o; (e.1 || p.1, { e.2 with x := p.2 })
  | 'y' :: _ => let p := parseChannel e.2.y o; (e.1 || p.1, { e.2 with y := p.2 })
  | 'm' :: t => match strtof t with
    | some v => (e.1, { e.2 with xmin := v })
    | none => (true, e.2)
  | 'M' :: t => match strtof t with
    | some v => (e.1, { e.2 with xmax := v })
    | none => (true, e.2)
  | _ => (true, e.2)

/-- Lines 863-875: the defaults. -/
def defaults (s : State) : State := { s with
  ms := 0
  x := { s.x with kind := .compensated, channel := 0, derivative := false }
  y := { s.y with kind := .compensated, channel := 0, derivative := true }
  xmin := .fin 0
  xmax := .fin 1 }

/-- `d hstart` (`fw/board_debug.cc` 862-916): whether the answer is `OK`, and the new
state. -/
def hstart (strtof : List Char → Option Fl) (s : State) (opts : List (List Char)) : Bool × State :=
  let e := opts.foldl (option strtof) (false, defaults s)
  if e.1 then (false, e.2) else (true, { e.2 with active := true })

/-- `d hend` (`fw/board_debug.cc` 918-935): the lines of the answer before `OK`. -/
def hend (A : Ar) (s : State) : List Fl × State :=
  if s.active then
    let values := fun i => A.div (s.values i) (A.lit (s.counts i))
    (List.ofFn values, { s with active := false, values := values })
  else ([], s)

/-- The value of a source (`fw/board_debug.cc` 982-1027). -/
def value (A : Ar) (s : Source) (r : Reading) (e : Encoder) : Fl :=
  match s.kind with
  | .none => .fin 0
  | .theta => A.div r.theta (.fin twoPi)
  | .velocity => e.velocity
  | .compensated => A.div e.compensated (A.lit e.cpr)
  | .filtered => A.div e.filtered (A.lit e.cpr)
  | .offset => A.div e.offset (A.lit e.cpr)
  | .raw => A.div (A.lit e.raw) (A.lit e.cpr)
  | .currentD => r.dA
  | .currentQ => r.qA
  | .error => r.error
  | .errorRate => r.errorRate

/-- `maybe_limit_x` (`fw/board_debug.cc` 973-979) -/
def limitX (xAxis : Bool) (v : Fl) : Fl :=
  if !xAxis then v
  else if Fl.blt v (.fin 0) then .fin 0
  else if Fl.blt (.fin 1) v then .fin 1
  else v

/-- `SampleHistogram` (`fw/board_debug.cc` 972-1043); `none`: an access outside of
`sources`. -/
def sample (A : Ar) (ms : ℕ) (s : Source) (xAxis : Bool) (r : Reading) : Option (Fl × Source) :=
  match r.encoders[s.channel]? with
  | none => none
  | some e =>
    let v := value A s r e
    if !s.derivative then some (limitX xAxis v, s)
    else
      let s' := { s with old := v }
      if ms = 0 then some (.fin 0, s')
      else
        let velocity := A.sub v s.old
        let wrapped := if s.kind.cyclic then wrapBalancedCpr A velocity (.fin 1) else velocity
        some (limitX xAxis (A.mul wrapped (A.lit 1000)), s')

/-- The bin of a value within the limits (`fw/board_debug.cc` 1057-1065). -/
def index (A : Ar) (xmin xmax x : Fl) : Fin 128 :=
  let scaled := A.div (A.sub x xmin) (A.sub xmax xmin)
  Fin.ofNat 128 (max 0 (min 127 (toI32 (A.mul scaled (A.lit 128))))).toNat

/-- What `DoHistogram` does with a point (`fw/board_debug.cc` 1049-1073). -/
def tally (A : Ar) (s : State) (xv yv : Fl) : State :=
  if s.ms = 0 then { s with values := fun _ => .fin 0, counts := fun _ => 0 }
  else if Fl.ble s.xmin xv && Fl.ble xv s.xmax then
    let i := index A s.xmin s.xmax xv
    if s.counts i ≠ 65535 then
      { s with
        values := fun j => if j = i then A.add (s.values i) yv else s.values j
        counts := fun j => if j = i then s.counts i + 1 else s.counts j }
    else s
  else s

/-- The end of `DoHistogram` (`fw/board_debug.cc` 1075). -/
def advance (s : State) : State := { s with ms := (s.ms + 1) % 4294967296 }

/-- `DoHistogram` (`fw/board_debug.cc` 1045-1076) -/
def doHistogram (A : Ar) (s : State) (r : Reading) : Option State :=
  match sample A s.ms s.x true r with
  | none => none
  | some (xv, x) =>
    match sample A s.ms s.y false r with
    | none => none
    | some (yv, y) => some (advance (tally A { s with x := x, y := y } xv yv))

/-- `PollMillisecond` (`fw/board_debug.cc` 137-144) -/
def poll (A : Ar) (s : State) (r : Reading) : Option State :=
  if s.active then doHistogram A s r else some s

/-- Many milliseconds. -/
def polls (A : Ar) : State → List Reading → Option State
  | s, [] => some s
  | s, r :: l => match poll A s r with
    | some s' => polls A s' l
    | none => none

/-! ## The options -/

namespace Spec

/-- The sources that the comment in lines 147-160 lists, and those that follow. -/
def letters : List Char := ['t', 'c', 'f', 'o', 'r', 'v', 'd', 'q', 'e', 'E']

/-- The text behind the axis: a letter, possibly a digit, and flags. -/
inductive Channel : List Char → Char → Option ℕ → ℕ → Prop
  | plain (l : Char) (k : ℕ) : l ∈ letters → Channel (l :: List.replicate k 'd') l none k
  | digit (l c : Char) (k n : ℕ) : l ∈ letters → n < 10 → c.toNat = 48 + n →
      Channel (l :: c :: List.replicate k 'd') l (some n) k

/-- An option in the right form. -/
inductive Option (strtof : List Char → _root_.Option Fl) : List Char → Prop
  | x {t l c k} : Channel t l c k → Option strtof ('x' :: t)
  | y {t l c k} : Channel t l c k → Option strtof ('y' :: t)
  | min {t} : (strtof t).isSome → Option strtof ('m' :: t)
  | max {t} : (strtof t).isSome → Option strtof ('M' :: t)

/-- What a letter stands for, in turns, turns per second, counts per second or
amperes. -/
def quantity (l : Char) (r : Reading) (e : Encoder) : ℚ → Prop := fun q =>
  match l with
  | 't' => ∃ θ, r.theta = .fin θ ∧ θ = q * twoPi
  | 'c' => ∃ v, e.compensated = .fin v ∧ v = q * e.cpr
  | 'f' => ∃ v, e.filtered = .fin v ∧ v = q * e.cpr
  | 'o' => ∃ v, e.offset = .fin v ∧ v = q * e.cpr
  | 'r' => (e.raw : ℚ) = q * e.cpr
  | 'v' => e.velocity = .fin q
  | 'd' => r.dA = .fin q
  | 'q' => r.qA = .fin q
  | 'e' => r.error = .fin q
  | 'E' => r.errorRate = .fin q
  | _ => False

/-- The quantities that come round. -/
def cyclic : List Char := ['t', 'c', 'f', 'o', 'r']

end Spec

theorem flags_ok (s : Source) : ∀ l : List Char, (flags s l).1 = false ↔ ∃ k, l = List.replicate k 'd' := by
  intro l
  induction l generalizing s with
  | nil => simp only [flags, true_iff]; exact ⟨0, rfl⟩
  | cons c l ih =>
    unfold flags
    split
    · rename_i hc
      rw [ih]
      constructor
      · rintro ⟨k, rfl⟩; exact ⟨k + 1, by rw [hc, List.replicate_succ]⟩
      · rintro ⟨k, hk⟩
        cases k with
        | zero => simp at hk
        | succ k => rw [List.replicate_succ] at hk; exact ⟨k, (List.cons.inj hk).2⟩
    · rename_i hc
      simp only [Bool.true_eq_false, false_iff]
      rintro ⟨k, hk⟩
      cases k with
      | zero => simp at hk
      | succ k => rw [List.replicate_succ] at hk; exact hc (List.cons.inj hk).1

theorem flags_eq (s : Source) (k : ℕ) :
    flags s (List.replicate k 'd') = (false, { s with derivative := s.derivative || decide (0 < k) }) := by
  induction k generalizing s with
  | zero => simp [flags]
  | succ k ih => rw [List.replicate_succ]; unfold flags; rw [if_pos rfl, ih]; simp

theorem kindOf_letters (l : Char) : (kindOf l).isSome = true ↔ l ∈ Spec.letters := by
  unfold kindOf Spec.letters
  split <;> simp_all

theorem digit_iff (c : Char) : ('0' ≤ c ∧ c ≤ '9') ↔ ∃ n < 10, c.toNat = 48 + n := by
  have h : ∀ a b : Char, a ≤ b ↔ a.toNat ≤ b.toNat := fun a b => Iff.rfl
  rw [h, h, show '0'.toNat = 48 from rfl, show '9'.toNat = 57 from rfl]
  constructor
  · intro h; exact ⟨c.toNat - 48, by omega, by omega⟩
  · rintro ⟨n, h1, h2⟩; omega

theorem d_not_digit : ¬ ('0' ≤ 'd' ∧ 'd' ≤ '9') := by decide

theorem digit_eq_none (s : Source) (k : ℕ) : digit s (List.replicate k 'd') = flags s (List.replicate k 'd') := by
  cases k with
  | zero => rfl
  | succ k => rw [List.replicate_succ, digit, if_neg d_not_digit]

theorem parse_eq (s : Source) (a : Char) {t : List Char} {l : Char} {c : Option ℕ} {k : ℕ}
    (h : Spec.Channel t l c k) :
    ∃ kind, kindOf l = some kind ∧ parseChannel s (a :: t) = (false,
      { s with kind := kind, channel := c.getD s.channel, derivative := decide (0 < k) }) := by
  cases h with
  | plain _ _ h =>
    obtain ⟨kind, hk⟩ := Option.isSome_iff_exists.mp ((kindOf_letters l).mpr h)
    refine ⟨kind, hk, ?_⟩
    unfold parseChannel
    simp only [hk]
    rw [digit_eq_none, flags_eq]
    simp
  | digit _ c _ n h hn hc =>
    obtain ⟨kind, hk⟩ := Option.isSome_iff_exists.mp ((kindOf_letters l).mpr h)
    refine ⟨kind, hk, ?_⟩
    unfold parseChannel
    simp only [hk]
    rw [digit, if_pos ((digit_iff c).mpr ⟨n, hn, hc⟩), flags_eq]
    simp [hc]

theorem parse_ok (s : Source) (a : Char) (t : List Char) :
    (parseChannel s (a :: t)).1 = false ↔ ∃ l c k, Spec.Channel t l c k := by
  constructor
  · intro h
    unfold parseChannel at h
    cases t with
    | nil => simp at h
    | cons l t =>
      simp only at h
      cases hk : kindOf l with
      | none => rw [hk] at h; simp at h
      | some kind =>
        rw [hk] at h
        have hl := (kindOf_letters l).mp (by rw [hk]; rfl)
        simp only at h
        cases t with
        | nil => exact ⟨l, none, 0, .plain l 0 hl⟩
        | cons c t =>
          rw [digit] at h
          split at h
          · rename_i hc
            obtain ⟨n, hn, hc⟩ := (digit_iff c).mp hc
            obtain ⟨k, rfl⟩ := (flags_ok _ _).mp h
            exact ⟨l, some n, k, .digit l c k n hl hn hc⟩
          · obtain ⟨k, hk⟩ := (flags_ok _ _).mp h
            rw [hk]
            exact ⟨l, none, k, .plain l k hl⟩
  · rintro ⟨l, c, k, h⟩
    obtain ⟨_, -, e⟩ := parse_eq s a h
    rw [e]

theorem option_ok (strtof : List Char → Option Fl) (e : Bool × State) (o : List Char) :
    (option strtof e o).1 = false ↔ e.1 = false ∧ Spec.Option strtof o := by
  unfold option
  split
  · rename_i t
    simp only [Bool.or_eq_false_iff, parse_ok]
    refine and_congr_right fun _ => ⟨fun ⟨l, c, k, h⟩ => .x h, fun h => ?_⟩
    cases h with | x h => exact ⟨_, _, _, h⟩
  · rename_i t
    simp only [Bool.or_eq_false_iff, parse_ok]
    refine and_congr_right fun _ => ⟨fun ⟨l, c, k, h⟩ => .y h, fun h => ?_⟩
    cases h with | y h => exact ⟨_, _, _, h⟩
  · rename_i t
    cases h : strtof t with
    | some v => exact ⟨fun he => ⟨he, .min (by rw [h]; rfl)⟩, fun he => he.1⟩
    | none =>
      simp only [Bool.true_eq_false, false_iff]
      rintro ⟨-, k⟩
      cases k with | min k => rw [h] at k; simp at k
  · rename_i t
    cases h : strtof t with
    | some v => exact ⟨fun he => ⟨he, .max (by rw [h]; rfl)⟩, fun he => he.1⟩
    | none =>
      simp only [Bool.true_eq_false, false_iff]
      rintro ⟨-, k⟩
      cases k with | max k => rw [h] at k; simp at k
  · rename_i h1 h2 h3 h4
    simp only [Bool.true_eq_false, false_iff]
    rintro ⟨-, k⟩
    cases k with
    | x => exact h1 _ rfl
    | y => exact h2 _ rfl
    | min => exact h3 _ rfl
    | max => exact h4 _ rfl

theorem fold_ok (strtof : List Char → Option Fl) : ∀ (opts : List (List Char)) (e : Bool × State),
    (opts.foldl (option strtof) e).1 = false ↔ e.1 = false ∧ ∀ o ∈ opts, Spec.Option strtof o := by
  intro opts
  induction opts with
  | nil => intro e; simp
  | cons o opts ih =>
    intro e
    rw [List.foldl_cons, ih, option_ok, List.forall_mem_cons, and_assoc]

/-- **C97** `d hstart` is answered with `OK` exactly when each option has the right
form. -/
theorem C97_accepts (strtof : List Char → Option Fl) (s : State) (opts : List (List Char)) :
    (hstart strtof s opts).1 = true ↔ ∀ o ∈ opts, Spec.Option strtof o := by
  have h := fold_ok strtof opts (false, defaults s)
  unfold hstart
  cases he : (opts.foldl (option strtof) (false, defaults s)).1
  · simp only [he, Bool.false_eq_true, if_false, true_iff]
    exact (h.mp he).2
  · simp only [he, if_true, Bool.false_eq_true, false_iff]
    intro k
    rw [h.mpr ⟨rfl, k⟩] at he
    simp at he

/-- **C97** Without options, the derivative of encoder 0 is gathered over encoder 0,
from 0 to 1; a channel option replaces the source of its axis, a limit its limit, and
nothing else. -/
theorem C97_options (strtof : List Char → Option Fl) (s : State) :
    (hstart strtof s [] = (true, { s with
      active := true, ms := 0, xmin := .fin 0, xmax := .fin 1
      x := ⟨.compensated, false, 0, s.x.old⟩, y := ⟨.compensated, true, 0, s.y.old⟩ })) ∧
    ∀ opts t, (hstart strtof s opts).1 = true → let h := (hstart strtof s opts).2
      (∀ l c k, Spec.Channel t l c k → ∃ kind, kindOf l = some kind ∧
        hstart strtof s (opts ++ ['x' :: t]) = (true, { h with
          x := ⟨kind, decide (0 < k), c.getD h.x.channel, h.x.old⟩ }) ∧
        hstart strtof s (opts ++ ['y' :: t]) = (true, { h with
          y := ⟨kind, decide (0 < k), c.getD h.y.channel, h.y.old⟩ })) ∧
      (∀ v, strtof t = some v →
        hstart strtof s (opts ++ ['m' :: t]) = (true, { h with xmin := v }) ∧
        hstart strtof s (opts ++ ['M' :: t]) = (true, { h with xmax := v })) := by
  refine ⟨rfl, ?_⟩
  intro opts t hok
  have he : (opts.foldl (option strtof) (false, defaults s)).1 = false :=
    (fold_ok _ _ _).mpr ⟨rfl, (C97_accepts strtof s opts).mp hok⟩
  unfold hstart
  simp only [he, Bool.false_eq_true, if_false, List.foldl_append, List.foldl_cons, List.foldl_nil]
  refine ⟨fun l c k h => ?_, fun v h => ?_⟩
  · obtain ⟨kind, hk, ex⟩ := parse_eq (opts.foldl (option strtof) (false, defaults s)).2.x 'x' h
    obtain ⟨kind', hk', ey⟩ := parse_eq (opts.foldl (option strtof) (false, defaults s)).2.y 'y' h
    obtain rfl : kind = kind' := by rw [hk] at hk'; exact Option.some.inj hk'
    refine ⟨kind, hk, ?_, ?_⟩
    · simp only [option, ex, he, Bool.or_false, Bool.false_eq_true, if_false]
    · simp only [option, ey, he, Bool.or_false, Bool.false_eq_true, if_false]
  · constructor
    · simp only [option, h, he, Bool.false_eq_true, if_false]
    · simp only [option, h, he, Bool.false_eq_true, if_false]

/-- **C97** What is gathered for a letter, in exact arithmetic, is the quantity that the
letter stands for; and it is taken to come round exactly when it does. -/
theorem C97_quantity (s : Source) (l : Char) (r : Reading) (e : Encoder) (q : ℚ)
    (h : kindOf l = some s.kind) (hc : 0 < e.cpr) (hq : Spec.quantity l r e q) :
    value .exact s r e = .fin q ∧ (s.kind.cyclic = true ↔ l ∈ Spec.cyclic) := by
  have hcpr : (e.cpr : ℚ) ≠ 0 := by exact_mod_cast hc.ne'
  have hpi : twoPi ≠ 0 := by unfold twoPi; norm_num
  have hdiv : ∀ a b : ℚ, b ≠ 0 → Ar.exact.div (.fin (a * b)) (.fin b) = .fin a := by
    intro a b hb
    simp [Ar.div, hb]
  have hl : l ∈ Spec.letters := (kindOf_letters l).mp (by rw [h]; rfl)
  unfold Spec.letters at hl
  simp only [List.mem_cons, List.not_mem_nil, or_false] at hl
  have hn : ∀ n : ℕ, Ar.exact.lit (n : ℚ) = .fin n := fun n => by simp [Ar.lit]
  rcases hl with rfl | rfl | rfl | rfl | rfl | rfl | rfl | rfl | rfl | rfl <;>
    simp only [kindOf, Option.some.injEq] at h <;>
    simp only [Spec.quantity] at hq <;>
    (refine ⟨?_, by rw [← h]; decide⟩) <;>
    unfold value <;> rw [← h] <;> simp only
  · obtain ⟨θ, e1, rfl⟩ := hq; rw [e1, hdiv _ _ hpi]
  · obtain ⟨θ, e1, rfl⟩ := hq; rw [e1, hn, hdiv _ _ hcpr]
  · obtain ⟨θ, e1, rfl⟩ := hq; rw [e1, hn, hdiv _ _ hcpr]
  · obtain ⟨θ, e1, rfl⟩ := hq; rw [e1, hn, hdiv _ _ hcpr]
  · rw [hn, hn, hq, hdiv _ _ hcpr]
  all_goals exact hq

/-! ## What is gathered -/

namespace Spec

/-- The value of a source in a reading. -/
def reading (A : Ar) (s : Source) (r : Reading) : Fl :=
  match r.encoders[s.channel]? with
  | some e => value A s r e
  | none => .nan

/-- What a source contributes in the millisecond from the reading `p` to the reading
`q`: its value, or the change per second. -/
def change (A : Ar) (s : Source) (p q : Reading) : Fl :=
  if s.derivative then
    A.mul (if s.kind.cyclic then wrapBalancedCpr A (A.sub (reading A s q) (reading A s p)) (.fin 1)
      else A.sub (reading A s q) (reading A s p)) (A.lit 1000)
  else reading A s q

/-- The points of all milliseconds but the first one. -/
def points (A : Ar) (x y : Source) : Reading → List Reading → List (Fl × Fl)
  | _, [] => []
  | p, q :: l => (limitX true (change A x p q), change A y p q) :: points A x y q l

/-- The values that belong to a bin. -/
def column (A : Ar) (lo hi : Fl) (j : Fin 128) (l : List (Fl × Fl)) : List Fl :=
  (l.filter fun p => Fl.ble lo p.1 && Fl.ble p.1 hi && decide (index A lo hi p.1 = j)).map Prod.snd

end Spec

/-- The source remembers the value of the reading. -/
def Remembers (A : Ar) (s : Source) (p : Reading) : Prop := s.derivative = true → s.old = Spec.reading A s p

/-- Two sources that differ at most in what they remember. -/
def Same (s t : Source) : Prop := s.kind = t.kind ∧ s.derivative = t.derivative ∧ s.channel = t.channel

theorem reading_same {s t : Source} (h : Same s t) (r : Reading) : Spec.reading A s r = Spec.reading A t r := by
  obtain ⟨k, d, c, o⟩ := s
  obtain ⟨k', d', c', o'⟩ := t
  obtain ⟨h1, h2, h3⟩ := h
  simp only at h1 h2 h3
  subst h1 h2 h3
  rfl

theorem change_same {s t : Source} (h : Same s t) (p q : Reading) : Spec.change A s p q = Spec.change A t p q := by
  obtain ⟨k, d, c, o⟩ := s
  obtain ⟨k', d', c', o'⟩ := t
  obtain ⟨h1, h2, h3⟩ := h
  simp only at h1 h2 h3
  subst h1 h2 h3
  rfl

theorem points_same {x x' y y' : Source} (hx : Same x x') (hy : Same y y') :
    ∀ (l : List Reading) (p : Reading), Spec.points A x y p l = Spec.points A x' y' p l := by
  intro l
  induction l with
  | nil => intro p; rfl
  | cons q l ih => intro p; rw [Spec.points, Spec.points, ih, change_same hx, change_same hy]

theorem sample_first (s : Source) (b : Bool) (r : Reading) (h : s.channel < r.encoders.length) :
    ∃ v s', sample A 0 s b r = some (v, s') ∧ Same s' s ∧ Remembers A s' r := by
  unfold sample
  obtain ⟨e, he⟩ : ∃ e, r.encoders[s.channel]? = some e := ⟨_, List.getElem?_eq_getElem h⟩
  rw [he]
  dsimp only
  cases hd : s.derivative
  · exact ⟨_, _, rfl, ⟨rfl, rfl, rfl⟩, fun k => by rw [hd] at k; simp at k⟩
  · refine ⟨_, _, rfl, ⟨rfl, hd.symm, rfl⟩, fun _ => ?_⟩
    unfold Spec.reading
    simp only [he]
    rfl

theorem sample_next (s : Source) (b : Bool) (p r : Reading) {ms : ℕ} (h : s.channel < r.encoders.length)
    (hm : ms ≠ 0) (hp : Remembers A s p) :
    ∃ s', sample A ms s b r = some (limitX b (Spec.change A s p r), s') ∧ Same s' s ∧ Remembers A s' r := by
  unfold sample Spec.change
  obtain ⟨e, he⟩ : ∃ e, r.encoders[s.channel]? = some e := ⟨_, List.getElem?_eq_getElem h⟩
  have hr : Spec.reading A s r = value A s r e := by unfold Spec.reading; rw [he]
  rw [he, hr]
  dsimp only
  cases hd : s.derivative
  · exact ⟨s, rfl, ⟨rfl, rfl, rfl⟩, fun k => by rw [hd] at k; simp at k⟩
  · refine ⟨{ s with old := value A s r e }, ?_, ⟨rfl, rfl, rfl⟩, fun _ => ?_⟩
    · rw [← hp hd]
      simp [hm, hd]
    · unfold Spec.reading
      simp only [he]
      rfl

theorem take_sub_cons {α : Type} (n : ℕ) (a : α) (l : List α) (h : 0 < n) :
    (a :: l).take n = a :: l.take (n - 1) := by
  obtain ⟨m, rfl⟩ : ∃ m, n = m + 1 := ⟨n - 1, by omega⟩
  rfl

theorem limitX_false (v : Fl) : limitX false v = v := rfl

/-- Gathering. -/
theorem gather (x y : Source) (lo hi : Fl) : ∀ (l : List Reading) (s : State) (p : Reading),
    s.active = true → s.ms ≠ 0 → s.ms + l.length < 4294967296 → (∀ j, s.counts j ≤ 65535) →
    (∀ r ∈ l, x.channel < r.encoders.length ∧ y.channel < r.encoders.length) →
    Same s.x x → Same s.y y → Remembers A s.x p → Remembers A s.y p → s.xmin = lo → s.xmax = hi →
    ∃ s', polls A s l = some s' ∧ s'.active = true ∧ ∀ j,
      s'.values j = ((Spec.column A lo hi j (Spec.points A x y p l)).take (65535 - s.counts j)).foldl A.add
        (s.values j) ∧
      s'.counts j = s.counts j +
        ((Spec.column A lo hi j (Spec.points A x y p l)).take (65535 - s.counts j)).length := by
  intro l
  induction l with
  | nil => intro s p ha _ _ _ _ _ _ _ _ _ _; exact ⟨s, rfl, ha, fun j => by simp [Spec.points, Spec.column]⟩
  | cons r l ih =>
    intro s p ha hm hl hc hch hsx hsy hox hoy hlo hhi
    obtain ⟨c1, c2⟩ := hch r (List.mem_cons_self ..)
    rw [← hsx.2.2] at c1
    rw [← hsy.2.2] at c2
    obtain ⟨x', ex, sx, ox⟩ := sample_next s.x true p r c1 hm hox
    obtain ⟨y', ey, sy, oy⟩ := sample_next s.y false p r c2 hm hoy
    have hms : (s.ms + 1) % 4294967296 = s.ms + 1 := by
      rw [List.length_cons] at hl
      omega
    have hlen : s.ms + 1 + l.length < 4294967296 := by rw [List.length_cons] at hl; omega
    have hsx' : Same x' x := ⟨sx.1.trans hsx.1, sx.2.1.trans hsx.2.1, sx.2.2.trans hsx.2.2⟩
    have hsy' : Same y' y := ⟨sy.1.trans hsy.1, sy.2.1.trans hsy.2.1, sy.2.2.trans hsy.2.2⟩
    have hpoints : Spec.points A x y p (r :: l) =
        (limitX true (Spec.change A s.x p r), Spec.change A s.y p r) :: Spec.points A x y r l := by
      rw [Spec.points, change_same hsx, change_same hsy]
    have hpoll : polls A s (r :: l) = match doHistogram A s r with
        | some s' => polls A s' l
        | none => none := by
      rw [polls, poll, if_pos ha]
    rw [hpoll, hpoints]
    unfold doHistogram
    rw [ex]
    dsimp only
    rw [ey]
    dsimp only
    rw [limitX_false]
    generalize hxv : limitX true (Spec.change A s.x p r) = xv
    generalize hyv : Spec.change A s.y p r = yv
    by_cases hin : (Fl.ble lo xv && Fl.ble xv hi) = true
    · generalize hi' : index A lo hi xv = i
      by_cases hfull : s.counts i = 65535
      · have ht : advance (tally A { s with x := x', y := y' } xv yv) =
            { s with x := x', y := y', ms := s.ms + 1 } := by
          unfold tally
          simp only [hm, if_false, hlo, hhi, hin, if_true, hi', hfull, ne_eq, not_true_eq_false]
          unfold advance
          simp only [hms]
        rw [ht]
        obtain ⟨s', e, a', hv⟩ := ih { s with x := x', y := y', ms := s.ms + 1 } r ha (by simp) hlen hc
          (fun r' h => hch r' (List.mem_cons_of_mem _ h)) hsx' hsy' ox oy hlo hhi
        refine ⟨s', e, a', fun j => ?_⟩
        obtain ⟨v1, v2⟩ := hv j
        by_cases hj : j = i
        · subst hj
          simp only [hfull] at v1 v2 ⊢
          simpa using And.intro v1 v2
        · have : Spec.column A lo hi j ((xv, yv) :: Spec.points A x y r l) =
              Spec.column A lo hi j (Spec.points A x y r l) := by
            unfold Spec.column
            rw [List.filter_cons_of_neg]
            simp [hi', Ne.symm hj]
          rw [this]
          exact ⟨v1, v2⟩
      · have ht : advance (tally A { s with x := x', y := y' } xv yv) = { s with
            x := x', y := y', ms := s.ms + 1
            values := fun j => if j = i then A.add (s.values i) yv else s.values j
            counts := fun j => if j = i then s.counts i + 1 else s.counts j } := by
          unfold tally
          simp only [hm, if_false, hlo, hhi, hin, if_true, hi', hfull, ne_eq, not_false_eq_true]
          unfold advance
          simp only [hms]
        rw [ht]
        have hci := hc i
        obtain ⟨s', e, a', hv⟩ := ih { s with
            x := x', y := y', ms := s.ms + 1
            values := fun j => if j = i then A.add (s.values i) yv else s.values j
            counts := fun j => if j = i then s.counts i + 1 else s.counts j } r ha (by simp) hlen
          (fun j => by
            simp only
            split
            · omega
            · exact hc j)
          (fun r' h => hch r' (List.mem_cons_of_mem _ h)) hsx' hsy' ox oy hlo hhi
        refine ⟨s', e, a', fun j => ?_⟩
        obtain ⟨v1, v2⟩ := hv j
        by_cases hj : j = i
        · subst hj
          have : Spec.column A lo hi j ((xv, yv) :: Spec.points A x y r l) =
              yv :: Spec.column A lo hi j (Spec.points A x y r l) := by
            unfold Spec.column
            rw [List.filter_cons_of_pos (by simp only [hin, hi', decide_true, Bool.and_self]), List.map_cons]
          rw [this, take_sub_cons _ _ _ (by omega), List.foldl_cons, List.length_cons]
          simp only [if_true] at v1 v2
          rw [show 65535 - (s.counts j + 1) = 65535 - s.counts j - 1 by omega] at v1 v2
          exact ⟨v1, by rw [v2]; omega⟩
        · have : Spec.column A lo hi j ((xv, yv) :: Spec.points A x y r l) =
              Spec.column A lo hi j (Spec.points A x y r l) := by
            unfold Spec.column
            rw [List.filter_cons_of_neg]
            simp [hi', Ne.symm hj]
          rw [this]
          simp only [if_neg hj] at v1 v2
          exact ⟨v1, v2⟩
    · have ht : advance (tally A { s with x := x', y := y' } xv yv) =
          { s with x := x', y := y', ms := s.ms + 1 } := by
        have hin' := Bool.eq_false_iff.mpr hin
        unfold tally
        simp only [hm, if_false, hlo, hhi, hin', Bool.false_eq_true]
        unfold advance
        simp only [hms]
      rw [ht]
      obtain ⟨s', e, a', hv⟩ := ih { s with x := x', y := y', ms := s.ms + 1 } r ha (by simp) hlen hc
        (fun r' h => hch r' (List.mem_cons_of_mem _ h)) hsx' hsy' ox oy hlo hhi
      refine ⟨s', e, a', fun j => ?_⟩
      have : Spec.column A lo hi j ((xv, yv) :: Spec.points A x y r l) =
          Spec.column A lo hi j (Spec.points A x y r l) := by
        unfold Spec.column
        rw [List.filter_cons_of_neg]
        simp only [Bool.and_eq_true] at hin ⊢
        tauto
      rw [this]
      exact hv j

theorem fold_ms (strtof : List Char → Option Fl) : ∀ (opts : List (List Char)) (e : Bool × State),
    (opts.foldl (option strtof) e).2.ms = e.2.ms := by
  intro opts
  induction opts with
  | nil => intro e; rfl
  | cons o opts ih =>
    intro e
    rw [List.foldl_cons, ih]
    unfold option
    split <;> (try rfl) <;> split <;> rfl

theorem hstart_ok (strtof : List Char → Option Fl) {s0 s : State} {opts : List (List Char)}
    (h : hstart strtof s0 opts = (true, s)) : s.active = true ∧ s.ms = 0 := by
  unfold hstart at h
  simp only at h
  split at h
  · simp at h
  · obtain rfl := (Prod.mk.inj h).2
    refine ⟨rfl, ?_⟩
    simp only
    rw [fold_ms]
    rfl

/-- **C97** From an accepted `d hstart` to `d hend`, with any number of milliseconds in
between (at most 49 days): each bin reports the sum of the values that belong to it, of
the first 65535 of them, divided by their number.  The millisecond of the first reading
does not count.  What was gathered before does not matter. -/
theorem C97_gathers (strtof : List Char → Option Fl) {s0 s : State} {opts : List (List Char)}
    (h : hstart strtof s0 opts = (true, s)) (p : Reading) (l : List Reading)
    (hl : l.length + 1 < 4294967296)
    (hch : ∀ r ∈ p :: l, s.x.channel < r.encoders.length ∧ s.y.channel < r.encoders.length) :
    ∃ s', polls A s (p :: l) = some s' ∧ (hend A s').1.length = 128 ∧ ∀ j : Fin 128,
      let ys := (Spec.column A s.xmin s.xmax j (Spec.points A s.x s.y p l)).take 65535
      (hend A s').1[j.val]? = some (A.div (ys.foldl A.add (.fin 0)) (A.lit ys.length)) := by
  obtain ⟨ha, hm⟩ := hstart_ok strtof h
  obtain ⟨c1, c2⟩ := hch p (List.mem_cons_self ..)
  obtain ⟨vx, x', ex, sx, ox⟩ := sample_first (A := A) s.x true p c1
  obtain ⟨vy, y', ey, sy, oy⟩ := sample_first (A := A) s.y false p c2
  obtain ⟨s', e, a', hv⟩ := gather (A := A) s.x s.y s.xmin s.xmax l { s with
      x := x', y := y', ms := 1, values := fun _ => .fin 0, counts := fun _ => 0 } p ha (by simp)
    (by simp only; omega) (fun j => by simp) (fun r h => hch r (List.mem_cons_of_mem _ h))
    sx sy ox oy rfl rfl
  refine ⟨s', ?_, ?_, ?_⟩
  · rw [polls, poll, if_pos ha]
    unfold doHistogram
    rw [hm, ex]
    dsimp only
    rw [ey]
    dsimp only
    rw [tally, if_pos rfl]
    exact e
  · unfold hend
    rw [if_pos a']
    exact List.length_ofFn
  · intro j ys
    unfold hend
    rw [if_pos a']
    obtain ⟨v1, v2⟩ := hv j
    simp only [Nat.sub_zero, Nat.zero_add] at v1 v2
    simp only [List.getElem?_ofFn, j.isLt, dif_pos, Fin.eta]
    rw [v1, v2]

theorem sum_near {κ B : ℚ} (hA : Fine A κ) (hB : 1 / 4096 ≤ B) (hB' : B ≤ 1099511627776) :
    ∀ (qs : List ℚ) (k : ℕ) (acc S : ℚ), (∀ q ∈ qs, |q| ≤ B) → k + qs.length ≤ 65535 → |S| ≤ k * B →
      |acc - S| ≤ κ * B * (k * (k + 1)) →
      ∃ m, (qs.map Fl.fin).foldl A.add (.fin acc) = .fin m ∧
        |m - (S + qs.sum)| ≤ κ * B * (((k + qs.length : ℕ) : ℚ) * ((k + qs.length : ℕ) + 1)) ∧
        |S + qs.sum| ≤ ((k + qs.length : ℕ) : ℚ) * B := by
  intro qs
  induction qs with
  | nil =>
    intro k acc S _ _ h1 h2
    exact ⟨acc, rfl, by simpa using h2, by simpa using h1⟩
  | cons q qs ih =>
    intro k acc S hq hk h1 h2
    rw [List.length_cons] at hk
    have hq0 := hq q (List.mem_cons_self ..)
    have hk0 := hA.nonneg'
    have hk1 := hA.le'
    have hkn : (k : ℚ) + 1 ≤ 65535 := by exact_mod_cast (by omega : k + 1 ≤ 65535)
    have hk00 : (0 : ℚ) ≤ k := by positivity
    have hB0 : 0 ≤ B := by linarith
    have hkB : 0 ≤ k * B := mul_nonneg hk00 hB0
    have hsmall : κ * B * (k * (k + 1)) ≤ k * B := by
      have : κ * (k + 1) ≤ 1 := by nlinarith
      nlinarith
    rw [abs_le] at hq0 h1 h2
    obtain ⟨y, ey, hy⟩ := op hA (x := acc + q) (2 * ((k + 1) * B))
      (by rw [abs_le]; constructor <;> linarith) (by nlinarith) (by nlinarith)
    rw [abs_le] at hy
    obtain ⟨m, em, hm, hm2⟩ := ih (k + 1) y (S + q) (fun r hr => hq r (List.mem_cons_of_mem _ hr)) (by omega)
      (by push_cast; rw [abs_le]; constructor <;> linarith)
      (by
        push_cast
        have : κ * B * ((k + 1) * (k + 1 + 1)) = κ * B * (k * (k + 1)) + 2 * ((k + 1) * B) * κ := by ring
        rw [this, abs_le]
        constructor <;> linarith)
    refine ⟨m, ?_, ?_, ?_⟩
    · rw [List.map_cons, List.foldl_cons, show A.add (.fin acc) (.fin q) = A.rnd (acc + q) from rfl, ey, em]
    · rw [List.sum_cons, List.length_cons, show k + (qs.length + 1) = k + 1 + qs.length by omega,
        ← add_assoc]
      exact hm
    · rw [List.sum_cons, List.length_cons, show k + (qs.length + 1) = k + 1 + qs.length by omega,
        ← add_assoc]
      exact hm2

/-- **C97** Each bin with samples reports their mean, up to rounding: with all values of
the bin at most `B`, the error is at most `B (n + 3) κ`.  It is zero in exact arithmetic
and below `B / 127` in that of the controller. -/
theorem C97_mean {κ B : ℚ} (hA : Fine A κ) (hB : 1 / 4096 ≤ B) (hB' : B ≤ 1099511627776)
    (strtof : List Char → Option Fl) {s0 s : State} {opts : List (List Char)}
    (h : hstart strtof s0 opts = (true, s)) (p : Reading) (l : List Reading)
    (hl : l.length + 1 < 4294967296)
    (hch : ∀ r ∈ p :: l, s.x.channel < r.encoders.length ∧ s.y.channel < r.encoders.length) :
    ∃ s', polls A s (p :: l) = some s' ∧ ∀ (j : Fin 128) (qs : List ℚ),
      (Spec.column A s.xmin s.xmax j (Spec.points A s.x s.y p l)).take 65535 = qs.map .fin →
      (qs = [] → (hend A s').1[j.val]? = some .nan) ∧
      (qs ≠ [] → (∀ q ∈ qs, |q| ≤ B) → ∃ m, (hend A s').1[j.val]? = some (.fin m) ∧
        |m - qs.sum / qs.length| ≤ B * (qs.length + 3) * κ) := by
  obtain ⟨s', e, -, hv⟩ := C97_gathers (A := A) strtof h p l hl hch
  refine ⟨s', e, fun j qs hqs => ?_⟩
  have hj := hv j
  simp only [hqs] at hj
  constructor
  · rintro rfl
    rw [hj]
    have := hA.lit_nat (n := 0) (by norm_num)
    simp only [Nat.cast_zero] at this
    simp [this, Ar.div]
  · intro hne hq
    have hlen : qs.length ≤ 65535 := by
      have := congrArg List.length hqs
      rw [List.length_take, List.length_map] at this
      omega
    obtain ⟨m, em, hm, hm2⟩ := sum_near hA hB hB' qs 0 0 0 hq (by omega) (by simp) (by simp)
    simp only [zero_add] at hm hm2
    have hn : 0 < qs.length := List.length_pos_iff.mpr hne
    have hnq : (0 : ℚ) < qs.length := by exact_mod_cast hn
    have hnq1 : (1 : ℚ) ≤ qs.length := by exact_mod_cast hn
    have hnq2 : (qs.length : ℚ) ≤ 65535 := by exact_mod_cast hlen
    have hk0 := hA.nonneg'
    have hk1 := hA.le'
    have hB0 : 0 ≤ B := by linarith
    have hd1 : |m / qs.length - qs.sum / qs.length| ≤ κ * B * (qs.length + 1) := by
      rw [← sub_div, abs_div, abs_of_pos hnq, div_le_iff₀ hnq]
      linarith
    have hd2 : |qs.sum / qs.length| ≤ B := by
      rw [abs_div, abs_of_pos hnq, div_le_iff₀ hnq]
      linarith
    have hsmall : κ * B * (qs.length + 1) ≤ B := by
      have : κ * (qs.length + 1) ≤ 1 := by nlinarith
      nlinarith
    rw [abs_le] at hd1 hd2
    obtain ⟨y, ey, hy⟩ := op hA (x := m / qs.length) (2 * B)
      (by rw [abs_le]; constructor <;> linarith) (by linarith) (by linarith)
    rw [abs_le] at hy
    refine ⟨y, ?_, ?_⟩
    · rw [hj, List.length_map, em, hA.lit_nat (by omega)]
      simp only [Ar.div, hnq.ne', if_false]
      rw [ey]
    · rw [abs_le]
      constructor <;> linarith

/-- **C97** A point between the limits falls into the bin of its 128th part of the range;
close to a border, within 1024 κ of the width of a bin (1/8192), it may fall into the
neighbour.  In exact arithmetic it never does. -/
theorem C97_bin {κ lo hi x : ℚ} (hA : Fine A κ) (hw : 1 / 4096 ≤ hi - lo) (hw' : hi - lo ≤ 1048576)
    (h1 : lo ≤ x) (h2 : x ≤ hi) :
    let j := index A (.fin lo) (.fin hi) (.fin x)
    let width := (hi - lo) / 128
    lo + (j.val - 1024 * κ) * width ≤ x ∧ (x < lo + (j.val + 1 + 1024 * κ) * width ∨ j.val = 127) := by
  intro j width
  obtain ⟨w, hwd⟩ : ∃ w, w = hi - lo := ⟨_, rfl⟩
  obtain ⟨t, ht⟩ : ∃ t, t = (x - lo) / w := ⟨_, rfl⟩
  have hw0 : 0 < w := by linarith
  have hxt : x - lo = w * t := by rw [ht]; field_simp
  have ht0 : 0 ≤ t := by rw [ht]; exact div_nonneg (by linarith) hw0.le
  have ht1 : t ≤ 1 := by rw [ht, div_le_one hw0]; linarith
  have hk0 := hA.nonneg'
  have hk1 := hA.le'
  obtain ⟨a, ea, ha⟩ := op hA (x := x - lo) w (by rw [abs_le]; constructor <;> linarith) (by linarith) (by linarith)
  obtain ⟨b, eb, hb⟩ := op hA (x := hi - lo) w (by rw [abs_le]; constructor <;> linarith) (by linarith) (by linarith)
  rw [← hwd] at hb
  rw [hxt] at ha
  rw [abs_le] at ha hb
  have hwk : w * κ ≤ w * (1 / 8388608) := mul_le_mul_of_nonneg_left hk1 hw0.le
  have hb0 : 0 < b := by linarith
  have hq : |a / b - t| ≤ 3 * κ := by
    rw [show a / b - t = (a - t * b) / b by field_simp, abs_div, abs_of_pos hb0, div_le_iff₀ hb0, abs_le]
    have e1 : t * (b - w) ≤ w * κ := by nlinarith
    have e2 : -(w * κ) ≤ t * (b - w) := by nlinarith
    have e3 : 2 * (w * κ) ≤ 3 * κ * b := by nlinarith
    constructor <;> nlinarith
  rw [abs_le] at hq
  obtain ⟨q, eq, hq'⟩ := op hA (x := a / b) 2 (by rw [abs_le]; constructor <;> linarith) (by norm_num) (by norm_num)
  rw [abs_le] at hq'
  obtain ⟨z, ez, hz⟩ := op hA (x := q * 128) 256 (by rw [abs_le]; constructor <;> linarith) (by norm_num) (by norm_num)
  rw [abs_le] at hz
  have hz1 : 128 * t - 1024 * κ ≤ z := by linarith
  have hz2 : z ≤ 128 * t + 1024 * κ := by linarith
  have hj : j = Fin.ofNat 128 (max 0 (min 127 (toI32 (.fin z)))).toNat := by
    show index A (.fin lo) (.fin hi) (.fin x) = _
    unfold index
    rw [Verif.Fw.sub_fin, Verif.Fw.sub_fin, ea, eb]
    simp only [Ar.div, hb0.ne', if_false]
    rw [eq]
    have := hA.lit_nat (n := 128) (by norm_num)
    push_cast at this
    rw [this, Verif.Fw.mul_fin, ez]
  have hzlo : -1 < z := by linarith
  have hzhi : z ≤ 129 := by linarith
  have hwx : x = lo + 128 * t * width := by
    show x = lo + 128 * t * ((hi - lo) / 128)
    rw [← hwd]
    linarith
  have hwidth : 0 ≤ width := by
    show 0 ≤ (hi - lo) / 128
    linarith
  suffices hs : (j.val : ℚ) - 1024 * κ ≤ 128 * t ∧ (128 * t < j.val + 1 + 1024 * κ ∨ j.val = 127) by
    have hwp : 0 < width := by
      show 0 < (hi - lo) / 128
      linarith
    refine ⟨?_, hs.2.imp (fun h => ?_) id⟩
    · rw [hwx]
      have := mul_le_mul_of_nonneg_right hs.1 hwidth
      linarith
    · rw [hwx]
      have := mul_lt_mul_of_pos_right h hwp
      linarith
  have htr : toI32 (.fin z) = truncQ z := by
    unfold toI32
    have : -2 ≤ truncQ z ∧ truncQ z ≤ 129 := by
      unfold truncQ
      split
      · rename_i h0
        have : z.floor ≤ 129 := by
          have := Rat.floor_le z
          have h : (z.floor : ℚ) ≤ 129 := this.trans hzhi
          exact_mod_cast h
        have h' : 0 ≤ z.floor := Rat.le_floor_iff.mpr (by simpa using h0)
        omega
      · rename_i h0
        have h' : 0 ≤ (-z).floor := Rat.le_floor_iff.mpr (by push_cast; linarith)
        have := Rat.floor_le (-z)
        have h : ((-z).floor : ℚ) ≤ 1 := by linarith
        have : (-z).floor ≤ 1 := by exact_mod_cast h
        omega
    show max (-2147483648) (min 2147483647 (truncQ z)) = truncQ z
    omega
  rw [htr] at hj
  by_cases h0 : 0 ≤ z
  · have hf : truncQ z = z.floor := by unfold truncQ; rw [if_pos h0]
    have hf0 : 0 ≤ z.floor := Rat.le_floor_iff.mpr (by simpa using h0)
    have hfl := Rat.floor_le z
    have hlt := Rat.lt_floor_add_one z
    rw [hf] at hj
    by_cases h127 : z.floor ≤ 127
    · have hjv : (j.val : ℤ) = z.floor := by
        rw [hj]
        simp only [Fin.val_ofNat]
        omega
      have hjq : (j.val : ℚ) = z.floor := by exact_mod_cast hjv
      rw [hjq]
      refine ⟨by linarith, Or.inl ?_⟩
      push_cast at hlt
      linarith
    · have hjv : j.val = 127 := by
        rw [hj]
        simp only [Fin.val_ofNat]
        omega
      refine ⟨?_, Or.inr hjv⟩
      have : (128 : ℚ) ≤ z.floor := by exact_mod_cast (by omega : (128 : ℤ) ≤ z.floor)
      rw [hjv]
      push_cast
      linarith
  · have hf : truncQ z = 0 := by
      unfold truncQ
      rw [if_neg h0]
      have h' : 0 ≤ (-z).floor := Rat.le_floor_iff.mpr (by push_cast; linarith)
      have := Rat.floor_le (-z)
      have h : ((-z).floor : ℚ) < 1 := by linarith
      have : (-z).floor < 1 := by exact_mod_cast h
      omega
    have hjv : j.val = 0 := by rw [hj, hf]; rfl
    rw [hjv]
    push_cast
    exact ⟨by linarith, Or.inl (by linarith)⟩

/-- **C97** The derivative of a quantity that comes round is 1000 times its change within
the millisecond, by the shorter way. -/
theorem C97_rate {κ v w : ℚ} (hA : Fine A κ) (s : Source) (p q : Reading) (hd : s.derivative = true)
    (hc : s.kind.cyclic = true) (hp : Spec.reading A s p = .fin v) (hq : Spec.reading A s q = .fin w)
    (hv : 0 ≤ v ∧ v ≤ 1) (hw : 0 ≤ w ∧ w ≤ 1) :
    ∃ (m : ℚ) (n : ℤ), Spec.change A s p q = .fin m ∧ |m - 1000 * (w - v + n)| ≤ 22000 * κ ∧
      |m| ≤ 500 + 20000 * κ := by
  have hk0 := hA.nonneg'
  have hk1 := hA.le'
  have h1 : A.Rep 1 := by simpa using hA.rep_int (n := 1) (by norm_num)
  obtain ⟨d, ed, hd'⟩ := op hA (x := w - v) 1 (by rw [abs_le]; constructor <;> linarith) (by norm_num) (by norm_num)
  rw [abs_le] at hd'
  obtain ⟨r, n, er, hr1, hr2⟩ := wrapBalanced_near hA (s := 1) (W := 1) (x := d)
    ⟨h1, by norm_num, by norm_num, by norm_num, by norm_num⟩ (by rw [abs_le]; constructor <;> linarith)
  rw [abs_le] at hr1 hr2
  obtain ⟨m, em, hm⟩ := op hA (x := r * 1000) 1000 (by rw [abs_le]; constructor <;> linarith)
    (by norm_num) (by norm_num)
  rw [abs_le] at hm
  refine ⟨m, n, ?_, by rw [abs_le]; constructor <;> linarith, by rw [abs_le]; constructor <;> linarith⟩
  unfold Spec.change
  have := hA.lit_nat (n := 1000) (by norm_num)
  push_cast at this
  rw [if_pos hd, if_pos hc, hp, hq, Verif.Fw.sub_fin, ed, er, this, Verif.Fw.mul_fin, em]

/-- **C97** The derivative of any other quantity, in exact arithmetic. -/
theorem C97_rate_plain {v w : ℚ} (s : Source) (p q : Reading) (hd : s.derivative = true)
    (hc : s.kind.cyclic = false) (hp : Spec.reading .exact s p = .fin v)
    (hq : Spec.reading .exact s q = .fin w) : Spec.change .exact s p q = .fin (1000 * (w - v)) := by
  unfold Spec.change
  rw [if_pos hd, hc, hp, hq]
  simp [Ar.sub, Ar.add, Ar.mul, Ar.lit, Fl.neg]
  ring

/-! ## Where it fails, and examples -/

def encoder0 : Encoder := ⟨.fin 4, .fin 5, .fin 6, 7, .fin 8, 16⟩

def reading0 : Reading := ⟨.fin 3, [encoder0, encoder0, encoder0], .fin (-3), .fin 9, .fin 1, .fin 2⟩

def idle : State :=
  ⟨false, 0, ⟨.none, false, 0, .fin 0⟩, ⟨.none, false, 0, .fin 0⟩, .fin 0, .fin 1, fun _ => .fin 0, fun _ => 0⟩

def noNumber : List Char → Option Fl := fun _ => none

/-- What `d hend` reports for a bin after the commands and readings. -/
def report (A : Ar) (s : State) (opts : List (List Char)) (l : List Reading) (j : ℕ) : Option Fl :=
  match polls A (hstart noNumber s opts).2 l with
  | some s' => (hend A s').1[j]?
  | none => none

/-- The state after this. -/
def after (A : Ar) (s : State) (opts : List (List Char)) (l : List Reading) : State :=
  match polls A (hstart noNumber s opts).2 l with
  | some s' => (hend A s').2
  | none => s

/-- **C97 refuted** The digits 3 to 9 are accepted for the encoder, of which there are
three: the first sample reads behind the end of the arrays. -/
theorem C97_channel_refuted (s : State) (r : Reading) (h : r.encoders.length = 3) :
    (hstart noNumber s [['x', 'c', '3']]).1 = true ∧
    poll .single (hstart noNumber s [['x', 'c', '3']]).2 r = none := by
  refine ⟨rfl, ?_⟩
  have : r.encoders[3]? = none := List.getElem?_eq_none (by omega)
  unfold poll
  rw [show (hstart noNumber s [['x', 'c', '3']]).2.active = true from rfl, if_pos rfl]
  unfold doHistogram sample
  rw [show (hstart noNumber s [['x', 'c', '3']]).2.x.channel = 3 from rfl, this]

/-- **C97 refuted** `d hend` within the millisecond of `d hstart` reports the result of
the histogram before, divided by the counts once more: here 9 A become 3 A. -/
theorem C97_stale_refuted :
    let opts := [['x', 'c'], ['y', 'q']]
    report .single idle opts (List.replicate 4 reading0) 32 = some (.fin 9) ∧
    report .single (after .single idle opts (List.replicate 4 reading0)) opts [] 32 = some (.fin 3) := by
  decide +kernel

/-- **C97 refuted** A refused `d hstart` is not without effect: a histogram that runs is
cleared and goes on with other sources. -/
theorem C97_refused_refuted :
    let s := (hstart noNumber idle [['x', 't'], ['y', 'q']]).2
    let e := hstart noNumber s [['z']]
    e.1 = false ∧ e.2.active = true ∧ e.2.ms = 0 ∧ s.x.kind = .theta ∧ e.2.x.kind = .compensated ∧
      s.y.kind = .currentQ ∧ e.2.y.kind = .compensated := by
  decide +kernel

/-- **C97 refuted** A point outside of the limits is counted, if the limits are the
default ones: the d current of -3 A falls into the bin from 0 to 1/128 A. -/
theorem C97_limits_refuted :
    report .single idle [['x', 'd'], ['y', 'q']] [reading0, reading0] 0 = some (.fin 9) := by
  decide +kernel

example : report .single idle [['x', 'c', '1'], ['y', 'q']] [reading0, reading0, reading0] 32 = some (.fin 9) ∧
    report .single idle [['x', 'c', '1'], ['y', 'q']] [reading0, reading0, reading0] 33 = some .nan := by
  decide +kernel

/-- The hypotheses of `C97_mean` and `C97_gathers`, and the column of a bin. -/
example : (hstart noNumber idle [['x', 'c', '1'], ['y', 'q', 'd']]).1 = true ∧
    (∀ r ∈ [reading0, reading0, reading0], 1 < r.encoders.length ∧ 0 < r.encoders.length) ∧
    Spec.column .single (.fin 0) (.fin 1) 32 (Spec.points .single
      (hstart noNumber idle [['x', 'c', '1'], ['y', 'q']]).2.x
      (hstart noNumber idle [['x', 'c', '1'], ['y', 'q']]).2.y reading0 [reading0, reading0]) =
      [.fin 9, .fin 9] := by
  refine ⟨rfl, ?_, by decide +kernel⟩
  intro r hr
  simp only [List.mem_cons, List.not_mem_nil, or_false] at hr
  rcases hr with rfl | rfl | rfl <;> decide

/-- `C97_bin` and `C97_rate` for a typical case; `C97_options` for an option. -/
example : index .single (.fin 0) (.fin 1) (.fin (1 / 3)) = 42 := by decide +kernel

example : Spec.change .exact ⟨.compensated, true, 0, .nan⟩ { reading0 with
    encoders := [{ encoder0 with compensated := .fin 15 }] } { reading0 with
    encoders := [{ encoder0 with compensated := .fin 1 }] } = .fin 125 := by decide +kernel

example : Spec.Channel ['c', '2', 'd'] 'c' (some 2) 1 :=
  .digit 'c' '2' 1 2 (by decide) (by decide) (by decide)

example : Spec.quantity 'c' reading0 encoder0 (1 / 4) := ⟨4, rfl, by norm_num [encoder0]⟩

end Verif.Fw.Hist
