import Mathlib.Data.List.Basic
import Mathlib.Data.List.Induction
import Mathlib.Data.List.TakeDrop
import Mathlib.Data.List.TakeWhile
import Mathlib.Data.Rat.Defs
import Mathlib.Algebra.Order.Ring.Rat
import Mathlib.Tactic.Linarith
import Mathlib.Tactic.NormNum
import Mathlib.Tactic.Ring

/-!
# The console, the polling and the plots of tview (C106)

`TviewMainWindow` of `utils/gui/moteus_gui/tview.py`: what a line of the console does, how devices are
polled, to which device a message goes, what an edited setting sends, which points of a plot are kept.

A text is the list of its characters as numbers.  The digits that `\d` matches are those of ASCII.
-/

namespace Verif.Tool.TviewConsole

abbrev Tx := List ℕ

def tx (s : String) : Tx := s.toList.map Char.toNat

/-! ## a line of the console -/

/-- white space of `str.strip()` and of `\s`. -/
def isSpace (c : ℕ) : Bool :=
  (9 ≤ c && c ≤ 13) || (28 ≤ c && c ≤ 32) || c = 0x85 || c = 0xa0 || c = 0x1680 || (0x2000 ≤ c && c ≤ 0x200a) ||
    c = 0x2028 || c = 0x2029 || c = 0x202f || c = 0x205f || c = 0x3000

def strip (l : Tx) : Tx := ((l.dropWhile isSpace).reverse.dropWhile isSpace).reverse

/-- `line.split('&&')` (tview.py:1104). -/
def splitAmp : Tx → List Tx
  | [] => [[]]
  | [c] => [[c]]
  | c :: d :: rest =>
    if c = 38 ∧ d = 38 then [] :: splitAmp rest
    else match splitAmp (d :: rest) with
      | [] => [[c]]
      | h :: t => (c :: h) :: t

def isDigit (c : ℕ) : Bool := 48 ≤ c && c ≤ 57

/-- `\d+`, and `int` of it. -/
def number (l : Tx) : Option ℕ :=
  if l ≠ [] ∧ l.all isDigit = true then some (l.foldl (fun n c => 10 * n + (c - 48)) 0) else none

inductive Target where
  | first | all | only (n : ℕ)
  deriving DecidableEq

inductive Cmd where
  | query (id : Option ℕ)
  | delay (ms : ℕ)
  | send (tgt : Target) (text : Tx)
  deriving DecidableEq

/-- `^(\?(\d+)?)$` (1139). -/
def trajRe : Tx → Option (Option ℕ)
  | [] => none
  | c :: ds => if c ≠ 63 then none else if ds = [] then some none else (number ds).map some

/-- `^:(\d+)$` (1137). -/
def delayRe : Tx → Option ℕ
  | [] => none
  | c :: ds => if c ≠ 58 then none else number ds

/-- `>\s*(.*)$`: `.` does not match a line feed. -/
def afterRe : Tx → Option Tx
  | [] => none
  | c :: rest => if c ≠ 62 then none else if 10 ∈ rest.dropWhile isSpace then none else some (rest.dropWhile isSpace)

/-- `^(A|\d+)>\s*(.*)$` (1138). -/
def deviceRe (c : Tx) : Option (Target × Tx) :=
  match c with
  | [] => none
  | a :: rest =>
    if a = 65 then (afterRe rest).map fun t => (.all, t)
    else match number (c.takeWhile isDigit) with
      | none => none
      | some n => (afterRe (c.dropWhile isDigit)).map fun t => (.only n, t)

/-- `_run_user_command` (1136-1157), up to what is done with the devices. -/
def parse (c : Tx) : Cmd :=
  match trajRe c with
  | some id => .query id
  | none =>
    match delayRe c with
    | some ms => .delay ms
    | none =>
      match deviceRe c with
      | some (g, t) => .send g t
      | none => .send .first c

inductive Ef where
  /-- the text goes to the controller with a line feed -/
  | write (dev : ℕ) (text : Tx)
  | sleep (ms : ℕ)
  /-- wait until the controller has finished its trajectory -/
  | query (dev : ℕ)
  deriving DecidableEq

/-- what a command does, `d :: ds` being the numbers of the devices (1111-1157). -/
def effect (d : ℕ) (ds : List ℕ) : Cmd → List Ef
  | .query none => [.query d]
  | .query (some n) => ((d :: ds).filter (· = n)).map .query
  | .delay ms => [.sleep ms]
  | .send .first t => ((d :: ds).filter (· = d)).map fun x => .write x (t ++ [10])
  | .send .all t => (d :: ds).map fun x => .write x (t ++ [10])
  | .send (.only n) t => ((d :: ds).filter (· = n)).map fun x => .write x (t ++ [10])

/-- `_run_user_command_line` (1102-1109). -/
def runLine (d : ℕ) (ds : List ℕ) (line : Tx) : List Ef :=
  ((splitAmp line).map strip).flatMap fun c => effect d ds (parse c)

/-! ## waiting for a trajectory -/

/-- `wait_for_data` (776-782).  The list holds, for each further time that records are handled,
`trajectory_done` of the last of them; `flag` says whether the event is set, `cur` is the data present. -/
def waitFor (flag cur : Bool) : List Bool → Option (Bool × List Bool)
  | [] => if flag then some (cur, []) else none
  | g :: gs => if flag then some (cur, g :: gs) else some (g, gs)

/-- the last loop of `_wait_user_query` (1129-1134). -/
def waitLoop : List Bool → Option (List Bool)
  | [] => none
  | g :: gs => if g then some gs else waitLoop gs

/-- `_wait_user_query` (1111-1134) for a device: what is left of the list when it returns, `none` while it
waits. -/
def waitQuery (flag cur : Bool) (gs : List Bool) : Option (List Bool) :=
  match waitFor flag cur gs with
  | none => none
  | some (c, gs) =>
    match waitFor false c gs with
    | none => none
    | some (_, gs) => waitLoop gs

/-! ## polling -/

/-- `error_count` and `poll_count` of a device. -/
structure Poll where
  err : ℕ
  cnt : ℕ
  deriving DecidableEq

/-- one iteration for a device (1062-1082): its new state and whether it was polled.  `answers`: it would
answer in time. -/
def pollStep (d : Poll) (answers : Bool) : Poll × Bool :=
  if d.cnt ≠ 0 then ({ d with cnt := d.cnt - 1 }, false)
  else if answers then ({ err := 0, cnt := 0 }, true)
  else ({ err := min 1000 (d.err + 1), cnt := min 1000 (d.err + 1) }, true)

def pollRun (d : Poll) : List Bool → Poll × List Bool
  | [] => (d, [])
  | a :: as => ((pollRun (pollStep d a).1 as).1, (pollStep d a).2 :: (pollRun (pollStep d a).1 as).2)

/-- the source of an identifier, as tview takes it (1032, 1068). -/
def source (id : ℕ) : ℕ := id / 256 % 256

/-- `_dispatch_until` (1027-1039): to which device each message goes (`none`: to nobody) and the messages that
are left. -/
def dispatch (devs : List ℕ) (polled : ℕ) : List ℕ → List (ℕ × Option ℕ) × List ℕ
  | [] => ([], [])
  | id :: ids =>
    let here := (id, devs.find? (· = source id))
    if source id = polled then ([here], ids)
    else (here :: (dispatch devs polled ids).1, (dispatch devs polled ids).2)

/-! ## an edited setting -/

inductive Kind where
  | enum | bool | other
  deriving DecidableEq

def lower (l : Tx) : Tx := l.map fun c => if 65 ≤ c ∧ c ≤ 90 then c + 32 else c

/-- `value.rsplit(':', 1)[-1]`. -/
def afterColon (l : Tx) : Tx := (l.reverse.takeWhile (· ≠ 58)).reverse

/-- `.strip(' >')`. -/
def stripGt (l : Tx) : Tx :=
  ((l.dropWhile fun c => c = 32 || c = 62).reverse.dropWhile fun c => c = 32 || c = 62).reverse

/-- the value that `config_item_changed` (807-815) sends. -/
def edited (k : Kind) (v : Tx) : Tx :=
  let v1 := if k = .enum ∧ 58 ∈ v then stripGt (afterColon v) else v
  if k = .bool ∧ (lower v1 = tx "true" ∨ lower v1 = tx "false") then
    if lower v1 = tx "true" then [49] else [48]
  else v1

/-- the line it writes. -/
def setLine (k : Kind) (name v : Tx) : Tx := tx "conf set " ++ name ++ [32] ++ edited k v ++ [13, 10]

/-! ## plots and statistics -/

/-- `PlotItem._handle_update` (228-257): the points kept after one more value. -/
def plotUpdate {α : Type} (history : ℚ) (pts : List (ℚ × α)) (p : ℚ × α) : List (ℚ × α) :=
  let all := pts ++ [p]
  let i := all.findIdx (fun q => decide (p.1 - history ≤ q.1))
  if i < all.length ∧ 1 + 1 < i then all.drop (i - 1) else all

/-- `Record.update` (406-410): the history that means and deviations are taken over. -/
def historyUpdate {α : Type} (h : List α) (x : α) : List α :=
  if 100 < (h ++ [x]).length then (h ++ [x]).drop 1 else h ++ [x]

/-! ## the specification -/

namespace Spec

/-- the digits of a number. -/
def IsNumber (ds : Tx) : Prop := ds ≠ [] ∧ ∀ c ∈ ds, 48 ≤ c ∧ c ≤ 57

/-- its value. -/
def value : Tx → ℕ
  | [] => 0
  | c :: cs => (c - 48) * 10 ^ cs.length + value cs

/-- the documented steps of a script. -/
inductive Step where
  | delay (ds : Tx)
  | wait
  | waitOf (ds : Tx)
  | all (gap text : Tx)
  | dev (ds gap text : Tx)
  | plain (text : Tx)

/-- a text for a controller: not empty, no blanks at its ends, no `&` and no line feed. -/
def IsText (t : Tx) : Prop :=
  (∃ c r, t = c :: r ∧ isSpace c = false) ∧ (∃ i c, t = i ++ [c] ∧ isSpace c = false) ∧ 38 ∉ t ∧ 10 ∉ t

def IsGap (g : Tx) : Prop := ∀ c ∈ g, c = 32 ∨ c = 9

def Step.Ok : Step → Prop
  | .delay ds => IsNumber ds
  | .wait => True
  | .waitOf ds => IsNumber ds
  | .all gap text => IsGap gap ∧ IsText text
  | .dev ds gap text => IsNumber ds ∧ IsGap gap ∧ IsText text
  | .plain text => IsText text ∧ ∃ c r, text = c :: r ∧ c ≠ 63 ∧ c ≠ 58 ∧ c ≠ 65 ∧ ¬ (48 ≤ c ∧ c ≤ 57)

def Step.text : Step → Tx
  | .delay ds => tx ":" ++ ds
  | .wait => tx "?"
  | .waitOf ds => tx "?" ++ ds
  | .all gap text => tx "A>" ++ gap ++ text
  | .dev ds gap text => ds ++ tx ">" ++ gap ++ text
  | .plain text => text

/-- what a step does when the devices are `d`, the first one, and `ds`. -/
def Step.does (d : ℕ) (ds : List ℕ) : Step → List Ef
  | .delay n => [.sleep (value n)]
  | .wait => [.query d]
  | .waitOf n => if value n ∈ d :: ds then [.query (value n)] else []
  | .all _ text => (d :: ds).map fun x => .write x (text ++ [10])
  | .dev n _ text => if value n ∈ d :: ds then [.write (value n) (text ++ [10])] else []
  | .plain text => [.write d (text ++ [10])]

/-- a script: its steps with the blanks around them, joined with `&&`. -/
def script : List (Tx × Step × Tx) → Tx
  | [] => []
  | [(a, s, b)] => a ++ s.text ++ b
  | (a, s, b) :: rest => a ++ s.text ++ b ++ [38, 38] ++ script rest

end Spec

theorem splitAmp_ne (l : Tx) : splitAmp l ≠ [] := by
  match l with
  | [] => simp [splitAmp]
  | [c] => simp [splitAmp]
  | c :: d :: rest =>
    rw [splitAmp]
    split
    · simp
    · split <;> simp

theorem splitAmp_plain (p : Tx) (h : 38 ∉ p) : splitAmp p = [p] := by
  induction p with
  | nil => rfl
  | cons c cs ih =>
    have ih := ih (fun hc => h (by simp [hc]))
    cases cs with
    | nil => rfl
    | cons d rest =>
      rw [splitAmp, if_neg (by rintro ⟨rfl, _⟩; simp at h), ih]

theorem splitAmp_join (p rest : Tx) (h : 38 ∉ p) : splitAmp (p ++ 38 :: 38 :: rest) = p :: splitAmp rest := by
  induction p with
  | nil => rw [List.nil_append, splitAmp, if_pos ⟨rfl, rfl⟩]
  | cons c cs ih =>
    have ih := ih (fun hc => h (by simp [hc]))
    have hc : c ≠ 38 := by rintro rfl; simp at h
    cases cs with
    | nil =>
      rw [List.nil_append] at ih
      show splitAmp (c :: 38 :: 38 :: rest) = _
      rw [splitAmp, if_neg (fun hx => hc hx.1), ih]
    | cons d t =>
      show splitAmp (c :: d :: (t ++ 38 :: 38 :: rest)) = _
      rw [splitAmp, if_neg (fun hx => hc hx.1)]
      have : splitAmp (d :: (t ++ 38 :: 38 :: rest)) = (d :: t) :: splitAmp rest := ih
      rw [this]

theorem strip_pads (a t b : Tx) (ha : Spec.IsGap a) (hb : Spec.IsGap b)
    (h1 : ∃ c r, t = c :: r ∧ isSpace c = false) (h2 : ∃ i c, t = i ++ [c] ∧ isSpace c = false) :
    strip (a ++ t ++ b) = t := by
  have hs : ∀ g, Spec.IsGap g → ∀ c ∈ g, isSpace c = true := by
    intro g hg c hc
    rcases hg c hc with h | h <;> subst h <;> decide
  obtain ⟨c, r, e, hc⟩ := h1
  obtain ⟨i, z, e2, hz⟩ := h2
  have e1 : (a ++ t ++ b).dropWhile isSpace = t ++ b := by
    rw [List.append_assoc, List.dropWhile_append_of_pos (hs a ha), e, List.cons_append,
      List.dropWhile_cons_of_neg (by simp [hc])]
  have e3 : (t ++ b).reverse.dropWhile isSpace = t.reverse := by
    rw [List.reverse_append, List.dropWhile_append_of_pos (by simpa using hs b hb), e2, List.reverse_append,
      List.reverse_singleton, List.singleton_append, List.dropWhile_cons_of_neg (by simp [hz])]
  rw [strip, e1, e3, List.reverse_reverse]

theorem number_eq {ds : Tx} (h : Spec.IsNumber ds) : number ds = some (Spec.value ds) := by
  have ha : ds.all isDigit = true := by
    rw [List.all_eq_true]
    intro c hc
    have := h.2 c hc
    simp [isDigit, this.1, this.2]
  have key : ∀ (l : Tx) (n : ℕ), l.foldl (fun n c => 10 * n + (c - 48)) n = n * 10 ^ l.length + Spec.value l := by
    intro l
    induction l with
    | nil => intro n; simp [Spec.value]
    | cons c cs ih => intro n; rw [List.foldl_cons, ih, Spec.value, List.length_cons, pow_succ]; ring
  rw [number, if_pos ⟨h.1, ha⟩, key]
  simp

theorem number_head {c : ℕ} {r : Tx} (hc : isDigit c = false) : number (c :: r) = none := by
  rw [number, if_neg]
  rintro ⟨_, h⟩
  rw [List.all_cons, hc] at h
  simp at h

/-- characters that `&&` and a text are about. -/
theorem number_no {ds : Tx} (h : Spec.IsNumber ds) (x : ℕ) (hx : ¬ (48 ≤ x ∧ x ≤ 57)) : x ∉ ds :=
  fun hm => hx (h.2 x hm)

theorem after_gap {g t : Tx} (hg : Spec.IsGap g) (ht : Spec.IsText t) : afterRe (62 :: (g ++ t)) = some t := by
  obtain ⟨⟨c, r, e, hc⟩, _, _, h10⟩ := ht
  have : (g ++ t).dropWhile isSpace = t := by
    rw [List.dropWhile_append_of_pos, e, List.dropWhile_cons_of_neg (by simp [hc])]
    intro x hx
    rcases hg x hx with h | h <;> subst h <;> decide
  rw [afterRe, if_neg (by simp), this, if_neg h10]

theorem filter_one (d : ℕ) (l : List ℕ) (h : l.Nodup) : l.filter (· = d) = if d ∈ l then [d] else [] := by
  induction l with
  | nil => rfl
  | cons x xs ih =>
    rw [List.nodup_cons] at h
    rw [List.filter_cons, ih h.2]
    by_cases hx : x = d
    · subst hx
      simp [h.1]
    · have hd : d ≠ x := fun e => hx e.symm
      simp [hx, hd]

theorem parse_step (s : Spec.Step) (hs : s.Ok) : parse s.text = match s with
    | .delay n => .delay (Spec.value n)
    | .wait => .query none
    | .waitOf n => .query (some (Spec.value n))
    | .all _ t => .send .all t
    | .dev n _ t => .send (.only (Spec.value n)) t
    | .plain t => .send .first t := by
  have t1 : tx ":" = [58] := by decide +kernel
  have t2 : tx "?" = [63] := by decide +kernel
  have t3 : tx "A>" = [65, 62] := by decide +kernel
  have t4 : tx ">" = [62] := by decide +kernel
  cases s with
  | delay ds =>
    simp only [Spec.Step.text, t1, List.singleton_append]
    rw [parse, trajRe, if_pos (by decide)]
    simp only [delayRe]
    rw [if_neg (by decide), number_eq hs]
  | wait => simp only [Spec.Step.text, t2]; decide
  | waitOf ds =>
    simp only [Spec.Step.text, t2, List.singleton_append]
    rw [parse, trajRe, if_neg (by decide), if_neg hs.1, number_eq hs]
    rfl
  | all g t =>
    simp only [Spec.Step.text, t3, List.cons_append, List.nil_append]
    rw [parse, trajRe, if_pos (by decide)]
    simp only [delayRe]
    rw [if_pos (by decide)]
    simp only [deviceRe]
    rw [if_pos trivial, after_gap hs.1 hs.2]
    rfl
  | dev n g t =>
    obtain ⟨hn, hg, ht⟩ := hs
    have he : (n ++ tx ">" ++ g ++ t) = n ++ 62 :: (g ++ t) := by simp [t4]
    simp only [Spec.Step.text, he]
    obtain ⟨c, r, e⟩ : ∃ c r, n = c :: r := by
      cases n with
      | nil => exact absurd rfl hn.1
      | cons c r => exact ⟨c, r, rfl⟩
    have hc := hn.2 c (by rw [e]; simp)
    have hd : ∀ x ∈ n, isDigit x = true := by
      intro x hx
      have := hn.2 x hx
      simp [isDigit, this.1, this.2]
    have htw : (n ++ 62 :: (g ++ t)).takeWhile isDigit = n := by
      rw [List.takeWhile_append_of_pos hd, List.takeWhile_cons_of_neg (by decide), List.append_nil]
    have hdw : (n ++ 62 :: (g ++ t)).dropWhile isDigit = 62 :: (g ++ t) := by
      rw [List.dropWhile_append_of_pos hd, List.dropWhile_cons_of_neg (by decide)]
    have hdev : deviceRe (n ++ 62 :: (g ++ t)) = some (.only (Spec.value n), t) := by
      rw [deviceRe.eq_def]
      rw [e, List.cons_append]
      simp only
      rw [if_neg (by omega), ← List.cons_append, ← e, htw, hdw, number_eq hn, after_gap hg ht]
      rfl
    have h1 : trajRe (n ++ 62 :: (g ++ t)) = none := by
      rw [e, List.cons_append, trajRe, if_pos (by omega)]
    have h2 : delayRe (n ++ 62 :: (g ++ t)) = none := by
      rw [e, List.cons_append, delayRe, if_pos (by omega)]
    rw [parse, h1]
    simp only
    rw [h2]
    simp only
    rw [hdev]
  | plain t =>
    obtain ⟨_, c, r, e, h1, h2, h3, h4⟩ := hs
    simp only [Spec.Step.text]
    have hc : isDigit c = false := by
      simp only [isDigit, Bool.and_eq_false_imp, decide_eq_true_eq, decide_eq_false_iff_not]
      omega
    have hdev : deviceRe t = none := by
      rw [e, deviceRe]
      rw [if_neg h3, List.takeWhile_cons_of_neg (by simp [hc])]
      rfl
    have a1 : trajRe t = none := by rw [e, trajRe, if_pos h1]
    have a2 : delayRe t = none := by rw [e, delayRe, if_pos h2]
    rw [parse, a1]
    simp only
    rw [a2]
    simp only
    rw [hdev]

theorem effect_step (d : ℕ) (ds : List ℕ) (hn : (d :: ds).Nodup) (s : Spec.Step) (hs : s.Ok) :
    effect d ds (parse s.text) = s.does d ds := by
  rw [parse_step s hs]
  cases s with
  | delay n => rfl
  | wait => rfl
  | waitOf n =>
    simp only [effect, Spec.Step.does]
    rw [filter_one _ _ hn]
    split <;> rfl
  | all g t => rfl
  | dev n g t =>
    simp only [effect, Spec.Step.does]
    rw [filter_one _ _ hn]
    split <;> rfl
  | plain t =>
    simp only [effect, Spec.Step.does]
    rw [filter_one _ _ hn, if_pos (by simp)]
    rfl

theorem step_clean (s : Spec.Step) (hs : s.Ok) : 38 ∉ s.text ∧ (∃ c r, s.text = c :: r ∧ isSpace c = false) ∧
    ∃ i c, s.text = i ++ [c] ∧ isSpace c = false := by
  have t1 : tx ":" = [58] := by decide +kernel
  have t2 : tx "?" = [63] := by decide +kernel
  have t3 : tx "A>" = [65, 62] := by decide +kernel
  have t4 : tx ">" = [62] := by decide +kernel
  have dig : ∀ c, 48 ≤ c ∧ c ≤ 57 → isSpace c = false := by
    intro c hc
    simp only [isSpace, Bool.or_eq_false_iff, Bool.and_eq_false_imp, decide_eq_true_eq, decide_eq_false_iff_not]
    omega
  have lastDig : ∀ ds, Spec.IsNumber ds → ∃ i c, ds = i ++ [c] ∧ isSpace c = false := by
    intro ds h
    refine ⟨ds.dropLast, ds.getLast h.1, (List.dropLast_append_getLast h.1).symm, dig _ (h.2 _ (List.getLast_mem h.1))⟩
  have gapNo : ∀ g, Spec.IsGap g → 38 ∉ g := by
    intro g hg hm
    rcases hg 38 hm with h | h <;> simp at h
  cases s with
  | delay ds =>
    simp only [Spec.Step.text, t1, List.singleton_append]
    obtain ⟨i, c, e, hc⟩ := lastDig ds hs
    refine ⟨?_, ⟨58, ds, rfl, by decide⟩, 58 :: i, c, by rw [e]; rfl, hc⟩
    simp only [List.mem_cons, not_or]
    exact ⟨by decide, number_no hs 38 (by decide)⟩
  | wait => simp only [Spec.Step.text, t2]; exact ⟨by decide, ⟨63, [], rfl, by decide⟩, [], 63, rfl, by decide⟩
  | waitOf ds =>
    simp only [Spec.Step.text, t2, List.singleton_append]
    obtain ⟨i, c, e, hc⟩ := lastDig ds hs
    refine ⟨?_, ⟨63, ds, rfl, by decide⟩, 63 :: i, c, by rw [e]; rfl, hc⟩
    simp only [List.mem_cons, not_or]
    exact ⟨by decide, number_no hs 38 (by decide)⟩
  | all g t =>
    obtain ⟨hg, _, ⟨i, c, e, hc⟩, h38, _⟩ := hs
    simp only [Spec.Step.text, t3]
    refine ⟨?_, ⟨65, 62 :: (g ++ t), by simp, by decide⟩, [65, 62] ++ g ++ i, c, by rw [e]; simp, hc⟩
    simp only [List.cons_append, List.nil_append, List.mem_cons, List.mem_append, not_or]
    exact ⟨by decide, by decide, gapNo g hg, h38⟩
  | dev n g t =>
    obtain ⟨hn, hg, _, ⟨i, c, e, hc⟩, h38, _⟩ := hs
    simp only [Spec.Step.text, t4]
    obtain ⟨a, r, en⟩ : ∃ a r, n = a :: r := by
      cases n with
      | nil => exact absurd rfl hn.1
      | cons c r => exact ⟨c, r, rfl⟩
    refine ⟨?_, ⟨a, r ++ 62 :: (g ++ t), by rw [en]; simp, dig a (hn.2 a (by rw [en]; simp))⟩,
      n ++ [62] ++ g ++ i, c, by rw [e]; simp, hc⟩
    simp only [List.mem_append, List.mem_singleton, not_or]
    exact ⟨⟨⟨number_no hn 38 (by decide), by decide⟩, gapNo g hg⟩, h38⟩
  | plain t =>
    obtain ⟨⟨h1, h2, h3, _⟩, _⟩ := hs
    exact ⟨h3, h1, h2⟩

/-- A script does what the documentation says: its steps in order, each once; a text goes to the first
device, to the device with the given number or to all. -/
theorem C106_script (d : ℕ) (ds : List ℕ) (hn : (d :: ds).Nodup) (ss : List (Tx × Spec.Step × Tx)) (hne : ss ≠ [])
    (hs : ∀ s ∈ ss, Spec.IsGap s.1 ∧ s.2.1.Ok ∧ Spec.IsGap s.2.2) :
    runLine d ds (Spec.script ss) = ss.flatMap fun s => s.2.1.does d ds := by
  have piece : ∀ s ∈ ss, 38 ∉ s.1 ++ s.2.1.text ++ s.2.2 ∧
      effect d ds (parse (strip (s.1 ++ s.2.1.text ++ s.2.2))) = s.2.1.does d ds := by
    intro s hm
    obtain ⟨h1, h2, h3⟩ := hs s hm
    have hc := step_clean s.2.1 h2
    have gapNo : ∀ g, Spec.IsGap g → 38 ∉ g := by
      intro g hg hm
      rcases hg 38 hm with h | h <;> simp at h
    refine ⟨?_, by rw [strip_pads _ _ _ h1 h3 hc.2.1 hc.2.2, effect_step d ds hn _ h2]⟩
    simp only [List.mem_append, not_or]
    exact ⟨⟨gapNo _ h1, hc.1⟩, gapNo _ h3⟩
  clear hs
  induction ss with
  | nil => exact absurd rfl hne
  | cons s rest ih =>
    have hp := piece s (by simp)
    cases rest with
    | nil =>
      obtain ⟨a, s, b⟩ := s
      simp only [Spec.script, runLine]
      rw [splitAmp_plain _ hp.1]
      simpa using hp.2
    | cons s' rest =>
      have ih := ih (by simp) (fun x hx => piece x (by simp [hx]))
      obtain ⟨a, s, b⟩ := s
      have e : Spec.script ((a, s, b) :: s' :: rest) = (a ++ s.text ++ b) ++ 38 :: 38 :: Spec.script (s' :: rest) := by
        simp [Spec.script]
      rw [e, runLine, splitAmp_join _ _ hp.1, List.map_cons, List.flatMap_cons, List.flatMap_cons]
      rw [← ih, hp.2]
      rfl

/-- Whatever the line is, texts go to devices of tview only and end with a line feed. -/
theorem C106_devices (d : ℕ) (ds : List ℕ) (line : Tx) :
    ∀ e ∈ runLine d ds line, match e with
      | .write x t => x ∈ d :: ds ∧ t.getLast? = some 10
      | .sleep _ => True
      | .query x => x ∈ d :: ds := by
  intro e he
  obtain ⟨c, _, he⟩ := List.mem_flatMap.1 he
  cases hp : parse c with
  | query id =>
    rw [hp] at he
    cases id with
    | none => simp only [effect, List.mem_singleton] at he; subst he; simp
    | some n =>
      simp only [effect] at he
      obtain ⟨x, hx, rfl⟩ := List.mem_map.1 he
      exact (List.mem_filter.1 hx).1
  | delay ms => rw [hp] at he; simp only [effect, List.mem_singleton] at he; subst he; trivial
  | send tgt t =>
    rw [hp] at he
    cases tgt with
    | first =>
      simp only [effect] at he
      obtain ⟨x, hx, rfl⟩ := List.mem_map.1 he
      exact ⟨(List.mem_filter.1 hx).1, by simp⟩
    | all =>
      simp only [effect] at he
      obtain ⟨x, hx, rfl⟩ := List.mem_map.1 he
      exact ⟨hx, by simp⟩
    | only n =>
      simp only [effect] at he
      obtain ⟨x, hx, rfl⟩ := List.mem_map.1 he
      exact ⟨(List.mem_filter.1 hx).1, by simp⟩

/-- Broken: a text for, or a question about, a device that tview does not know does nothing, without a
message, and the script goes on. -/
theorem C106_unknown_refuted :
    runLine 1 [2] (tx "3>d stop") = [] ∧
    runLine 1 [2] (tx "?3 && d stop") = [.write 1 (tx "d stop\n")] := by
  decide +kernel

/-- Broken: a mistyped step is not refused: it is sent to the first controller as a command. -/
theorem C106_typo_refuted :
    runLine 1 [2] (tx ":1.5 && 2 > d stop") = [.write 1 (tx ":1.5\n"), .write 1 (tx "2 > d stop\n")] ∧
    runLine 1 [2] (tx "a>d stop") = [.write 1 (tx "a>d stop\n")] := by
  decide +kernel

/-- A question waits for a record with `trajectory_done` that is at least the third of the times that records
are handled (the second, if a record had been handled before and not been waited for), and for the first such. -/
theorem C106_query (flag cur : Bool) (gs rest : List Bool) :
    waitQuery flag cur gs = some rest ↔
      ∃ skip no, gs = skip ++ no ++ true :: rest ∧ skip.length = (if flag then 1 else 2) ∧ ∀ b ∈ no, b = false := by
  have loop : ∀ gs, waitLoop gs = some rest ↔ ∃ no, gs = no ++ true :: rest ∧ ∀ b ∈ no, b = false := by
    intro gs
    induction gs with
    | nil => simp [waitLoop]
    | cons g gs ih =>
      rw [waitLoop]
      cases g with
      | true =>
        rw [if_pos rfl]
        constructor
        · intro h; exact ⟨[], by simpa using h, by simp⟩
        · rintro ⟨no, e, h⟩
          cases no with
          | nil => simpa using e
          | cons x xs =>
            have := h x (by simp)
            rw [this] at e
            simp at e
      | false =>
        rw [if_neg (by decide), ih]
        constructor
        · rintro ⟨no, e, h⟩; exact ⟨false :: no, by rw [e]; rfl, by simpa using h⟩
        · rintro ⟨no, e, h⟩
          cases no with
          | nil => simp at e
          | cons x xs =>
            simp only [List.cons_append, List.cons.injEq] at e
            exact ⟨xs, e.2, fun b hb => h b (by simp [hb])⟩
  cases flag with
  | true =>
    have e : waitQuery true cur gs = match gs with | [] => none | _ :: gs => waitLoop gs := by
      cases gs <;> rfl
    rw [e]
    cases gs with
    | nil => simp
    | cons g gs =>
      simp only [loop]
      constructor
      · rintro ⟨no, rfl, h⟩; exact ⟨[g], no, by simp, by simp, h⟩
      · rintro ⟨skip, no, e, hl, h⟩
        obtain ⟨x, rfl⟩ := List.length_eq_one_iff.1 (by simpa using hl)
        simp only [List.cons_append, List.nil_append, List.cons.injEq] at e
        exact ⟨no, e.2, h⟩
  | false =>
    have e : waitQuery false cur gs = match gs with | _ :: _ :: gs => waitLoop gs | _ => none := by
      match gs with
      | [] => rfl
      | [g] => rfl
      | g :: g' :: gs => rfl
    rw [e]
    match gs with
    | [] => simp
    | [g] =>
      simp only [reduceCtorEq, false_iff]
      rintro ⟨skip, no, e, hl, h⟩
      have := congrArg List.length e
      simp at this hl
      omega
    | g :: g' :: gs =>
      simp only [loop]
      constructor
      · rintro ⟨no, rfl, h⟩; exact ⟨[g, g'], no, by simp, by simp, h⟩
      · rintro ⟨skip, no, e, hl, h⟩
        obtain ⟨x, y, rfl⟩ := List.length_eq_two.1 (by simpa using hl)
        simp only [List.cons_append, List.nil_append, List.cons.injEq] at e
        exact ⟨no, e.2.2, h⟩

/-! ## polling -/

theorem poll_bound {d : Poll} (h : d.cnt ≤ 1000) (a : Bool) : (pollStep d a).1.cnt ≤ 1000 := by
  rw [pollStep]
  split
  · simp only; omega
  · split
    · simp
    · exact min_le_left _ _

theorem run_bound (as : List Bool) : ∀ {d : Poll}, d.cnt ≤ 1000 → (pollRun d as).1.cnt ≤ 1000 := by
  induction as with
  | nil => intro d h; exact h
  | cons a as ih => intro d h; exact ih (poll_bound h a)

theorem run_append (as bs : List Bool) : ∀ d : Poll,
    pollRun d (as ++ bs) = ((pollRun (pollRun d as).1 bs).1, (pollRun d as).2 ++ (pollRun (pollRun d as).1 bs).2) := by
  induction as with
  | nil => intro d; simp [pollRun]
  | cons a as ih => intro d; simp [pollRun, ih]

theorem polled_within (as : List Bool) : ∀ d : Poll, d.cnt < as.length → true ∈ (pollRun d as).2 := by
  induction as with
  | nil => intro d h; simp at h
  | cons a as ih =>
    intro d h
    simp only [pollRun, List.mem_cons]
    by_cases hc : d.cnt = 0
    · left
      rw [pollStep, if_neg (by simp [hc])]
      split <;> rfl
    · right
      apply ih
      rw [pollStep, if_pos hc]
      simp only [List.length_cons] at h ⊢
      omega

/-- Every device is polled again and again: at least once in any 1001 iterations, in every iteration while it
answers, and in every iteration from the first answer on. -/
theorem C106_polled (before : List Bool) :
    (∀ as : List Bool, 1001 ≤ as.length → true ∈ (pollRun (pollRun ⟨0, 0⟩ before).1 as).2) ∧
    (∀ as : List Bool, (∀ a ∈ as, a = true) → (pollRun ⟨0, 0⟩ as) = (⟨0, 0⟩, as)) ∧
    (∀ d, (pollStep d true).2 = true → (pollStep d true).1 = ⟨0, 0⟩) := by
  refine ⟨fun as h => ?_, fun as h => ?_, fun d h => ?_⟩
  · have := run_bound before (d := ⟨0, 0⟩) (by simp)
    exact polled_within as _ (by omega)
  · induction as with
    | nil => rfl
    | cons a as ih =>
      have ha := h a (by simp)
      subst ha
      have ih := ih (fun b hb => h b (by simp [hb]))
      have : pollStep ⟨0, 0⟩ true = (⟨0, 0⟩, true) := by decide
      simp [pollRun, this, ih]
  · by_cases hc : d.cnt = 0
    · rw [pollStep, if_neg (by simp [hc]), if_pos rfl]
    · rw [pollStep, if_pos hc] at h
      simp at h

/-- A device that does not answer costs little: `k` polls without an answer take at least `k (k + 1) / 2`
iterations, up to the thousandth. -/
theorem C106_silent (n : ℕ) (k : ℕ) (hk : k = (pollRun ⟨0, 0⟩ (List.replicate n false)).2.count true) (h : k ≤ 1000) :
    k * (k + 1) ≤ 2 * n := by
  have inv : ∀ n, let r := pollRun ⟨0, 0⟩ (List.replicate n false)
      r.2.count true ≤ 1000 → r.1.err = r.2.count true ∧ r.1.cnt ≤ r.2.count true ∧
        2 * n + 2 * r.1.cnt = r.2.count true * (r.2.count true + 3) := by
    intro n
    induction n with
    | zero => intro r _; exact ⟨rfl, by decide, by decide⟩
    | succ n ih =>
      intro r
      have e : r = ((pollRun (pollRun ⟨0, 0⟩ (List.replicate n false)).1 [false]).1,
          (pollRun ⟨0, 0⟩ (List.replicate n false)).2 ++ (pollRun (pollRun ⟨0, 0⟩ (List.replicate n false)).1 [false]).2) := by
        rw [← run_append, ← List.replicate_succ']
      generalize pollRun ⟨0, 0⟩ (List.replicate n false) = q at *
      obtain ⟨⟨err, cnt⟩, l⟩ := q
      rw [e]
      simp only [pollRun, List.count_append, List.count_cons, List.count_nil]
      simp only at ih
      generalize l.count true = m at ih ⊢
      clear e r hk
      by_cases hc : cnt = 0
      · have hst : pollStep ⟨err, cnt⟩ false = (⟨min 1000 (err + 1), min 1000 (err + 1)⟩, true) := by
          rw [pollStep, if_neg (by simp [hc]), if_neg (by decide)]
        rw [hst]
        simp only [beq_self_eq_true, if_true, zero_add]
        intro hm
        obtain ⟨i1, i2, i3⟩ := ih (by omega)
        have hmin : min 1000 (err + 1) = m + 1 := by rw [i1]; omega
        rw [hmin]
        refine ⟨rfl, le_refl _, ?_⟩
        subst hc
        ring_nf at i3 ⊢
        omega
      · have hst : pollStep ⟨err, cnt⟩ false = (⟨err, cnt - 1⟩, false) := by
          rw [pollStep, if_pos hc]
        rw [hst]
        have hz : (0 + if (false == true) = true then 1 else 0) = 0 := by decide
        rw [hz, Nat.add_zero]
        simp only
        intro hm
        obtain ⟨i1, i2, i3⟩ := ih (by omega)
        refine ⟨i1, by omega, ?_⟩
        omega
  have := inv n
  simp only [← hk] at this
  obtain ⟨_, i2, i3⟩ := this h
  have e : k * (k + 3) = k * (k + 1) + 2 * k := by ring
  omega

/-- Every message that is read goes to the device with the number of its source, whichever device is polled;
reading ends with the first message of the polled device. -/
theorem C106_dispatch (devs : List ℕ) (polled : ℕ) (ids : List ℕ) :
    ∃ before, ids = before ++ (dispatch devs polled ids).2 ∧
      (dispatch devs polled ids).1 =
        before.map (fun id => (id, if source id ∈ devs then some (source id) else none)) ∧
      (∀ id ∈ before.dropLast, source id ≠ polled) ∧
      ((dispatch devs polled ids).2 ≠ [] → ∃ id, before.getLast? = some id ∧ source id = polled) := by
  have hf : ∀ n, devs.find? (· = n) = if n ∈ devs then some n else none := by
    intro n
    split
    · rename_i h
      cases hx : devs.find? (· = n) with
      | none => rw [List.find?_eq_none] at hx; exact absurd (by simp) (hx n h)
      | some x => have := List.find?_some hx; simp at this; rw [this]
    · rename_i h
      rw [List.find?_eq_none]
      intro x hx
      simp
      rintro rfl
      exact h hx
  induction ids with
  | nil => exact ⟨[], rfl, rfl, by simp, by simp [dispatch]⟩
  | cons id ids ih =>
    obtain ⟨b, h1, h2, h3, h4⟩ := ih
    rw [dispatch]
    by_cases hs : source id = polled
    · simp only [hs, if_true]
      refine ⟨[id], rfl, ?_, by simp, fun _ => ⟨id, rfl, hs⟩⟩
      simp [hf, hs]
    · simp only [hs, if_false]
      refine ⟨id :: b, by rw [List.cons_append, ← h1], by simp [h2, hf], ?_, ?_⟩
      · intro x hx
        cases b with
        | nil => simp at hx
        | cons y ys =>
          simp only [List.dropLast_cons_cons, List.mem_cons] at hx
          rcases hx with rfl | hx
          · exact hs
          · exact h3 x hx
      · intro hne
        obtain ⟨x, hx, hp⟩ := h4 hne
        refine ⟨x, ?_, hp⟩
        cases b with
        | nil => simp at hx
        | cons y ys => simpa using hx

/-- Broken: the prefix and the destination of an identifier are not looked at: messages of a device with
another prefix, and replies to another host, are taken. -/
theorem C106_prefix_refuted :
    dispatch [1] 1 [0x00050100] = ([(0x00050100, some 1)], []) ∧
    dispatch [1] 1 [0x0110] = ([(0x0110, some 1)], []) := by
  decide +kernel

/-! ## settings -/

/-- A changed setting is sent as it was typed; of an enumeration, shown as `<Name: 3>`, the number is sent, and
of a boolean 1 or 0. -/
theorem C106_edit (name v : Tx) :
    setLine .other name v = tx "conf set " ++ name ++ [32] ++ v ++ [13, 10] ∧
    (∀ label n, Spec.IsNumber n → setLine .enum name (label ++ tx ": " ++ n ++ tx ">") =
      tx "conf set " ++ name ++ [32] ++ n ++ [13, 10]) ∧
    (58 ∉ v → setLine .enum name v = tx "conf set " ++ name ++ [32] ++ v ++ [13, 10]) ∧
    setLine .bool name (tx "True") = tx "conf set " ++ name ++ tx " 1\r\n" ∧
    setLine .bool name (tx "False") = tx "conf set " ++ name ++ tx " 0\r\n" := by
  refine ⟨rfl, ?_, ?_, ?_, ?_⟩
  · intro label n hn
    have t1 : tx ": " = [58, 32] := by decide +kernel
    have t2 : tx ">" = [62] := by decide +kernel
    have h58 : ∀ c ∈ n, c ≠ 58 ∧ c ≠ 32 ∧ c ≠ 62 := by
      intro c hc
      have := hn.2 c hc
      omega
    have ha : afterColon (label ++ tx ": " ++ n ++ tx ">") = 32 :: (n ++ [62]) := by
      rw [t1, t2, afterColon]
      have : (label ++ [58, 32] ++ n ++ [62]).reverse = (62 :: (n.reverse ++ [32])) ++ (58 :: label.reverse) := by simp
      rw [this, List.takeWhile_append_of_pos, List.takeWhile_cons_of_neg (by simp)]
      · simp
      · intro c hc
        simp only [List.mem_cons, List.mem_append, List.mem_reverse, List.not_mem_nil, or_false] at hc
        rcases hc with rfl | hc | rfl
        · decide
        · simpa using (h58 c hc).1
        · decide
    have hg : stripGt (32 :: (n ++ [62])) = n := by
      have d1 : (32 :: (n ++ [62])).dropWhile (fun c => c = 32 || c = 62) = n ++ [62] := by
        rw [List.dropWhile_cons_of_pos (by decide)]
        cases n with
        | nil => exact absurd rfl hn.1
        | cons c r =>
          rw [List.cons_append, List.dropWhile_cons_of_neg]
          have := h58 c (by simp)
          simp [this.2.1, this.2.2]
      have d2 : (n ++ [62]).reverse.dropWhile (fun c => c = 32 || c = 62) = n.reverse := by
        rw [List.reverse_append, List.reverse_singleton, List.singleton_append, List.dropWhile_cons_of_pos (by decide)]
        cases hr : n.reverse with
        | nil => rfl
        | cons c r =>
          rw [List.dropWhile_cons_of_neg]
          have := h58 c (by rw [← List.mem_reverse, hr]; simp)
          simp [this.2.1, this.2.2]
      rw [stripGt, d1, d2, List.reverse_reverse]
    have hed : edited .enum (label ++ tx ": " ++ n ++ tx ">") = n := by
      simp only [edited]
      rw [if_neg (by simp), if_pos ⟨trivial, by rw [t1]; simp⟩, ha, hg]
    rw [setLine, hed]
  · intro h
    have : edited .enum v = v := by
      simp only [edited]
      rw [if_neg (by simp), if_neg (fun hx => h hx.2)]
    rw [setLine, this]
  · have h1 : edited .bool (tx "True") = [49] := by decide +kernel
    have h2 : tx " 1\r\n" = [32, 49, 13, 10] := by decide +kernel
    rw [setLine, h1, h2]; simp
  · have h1 : edited .bool (tx "False") = [48] := by decide +kernel
    have h2 : tx " 0\r\n" = [32, 48, 13, 10] := by decide +kernel
    rw [setLine, h1, h2]; simp

/-! ## plots -/

theorem findIdx_spec {α : Type} (p : α → Bool) (l : List α) :
    (∀ q ∈ l.take (l.findIdx p), p q = false) := by
  intro q hq
  obtain ⟨i, hi, e⟩ := List.getElem_of_mem hq
  rw [List.getElem_take] at e
  have h1 : i < l.findIdx p := by rw [List.length_take] at hi; omega
  have := List.not_of_lt_findIdx h1
  rw [← e]
  simpa using this

theorem plot_step {α : Type} (history : ℚ) (hh : 0 ≤ history) (pts : List (ℚ × α)) (p : ℚ × α)
    (hs : (pts ++ [p]).Pairwise (fun a b => a.1 ≤ b.1)) :
    ∃ dropped, pts ++ [p] = dropped ++ plotUpdate history pts p ∧ (∀ q ∈ dropped, q.1 < p.1 - history) ∧
      ((plotUpdate history pts p).filter (fun q => decide (q.1 < p.1 - history))).length ≤ 2 := by
  unfold plotUpdate
  generalize hall : pts ++ [p] = all at hs ⊢
  simp only
  generalize hi : all.findIdx (fun q => decide (p.1 - history ≤ q.1)) = i
  have hold : ∀ q ∈ all.take i, q.1 < p.1 - history := by
    intro q hq
    rw [← hi] at hq
    have := findIdx_spec _ all q hq
    rw [decide_eq_false_iff_not, not_le] at this
    exact this
  have hlt : i < all.length := by
    rw [← hi, List.findIdx_lt_length]
    exact ⟨p, by rw [← hall]; simp, by simpa using hh⟩
  have hnew : ∀ q ∈ all.drop i, p.1 - history ≤ q.1 := by
    have h0 : p.1 - history ≤ (all[i]).1 := by
      have := List.findIdx_getElem (p := fun q : ℚ × α => decide (p.1 - history ≤ q.1)) (xs := all) (w := by rw [hi]; exact hlt)
      simp only [hi] at this
      simpa using this
    intro q hq
    rw [List.drop_eq_getElem_cons hlt] at hq
    have hs' : (all[i] :: all.drop (i + 1)).Pairwise (fun a b : ℚ × α => a.1 ≤ b.1) := by
      rw [← List.drop_eq_getElem_cons hlt]
      exact hs.sublist (List.drop_sublist i all)
    rcases List.mem_cons.1 hq with rfl | hq
    · exact h0
    · exact le_trans h0 (List.rel_of_pairwise_cons hs' hq)
  have hfnew : (all.drop i).filter (fun q => decide (q.1 < p.1 - history)) = [] := by
    rw [List.filter_eq_nil_iff]
    intro q hq
    simpa using hnew q hq
  by_cases hc : i < all.length ∧ 1 + 1 < i
  · rw [if_pos hc]
    refine ⟨all.take (i - 1), (List.take_append_drop _ _).symm, ?_, ?_⟩
    · intro q hq
      exact hold q ((List.take_prefix_take_left (by omega)).subset hq)
    · have e : all.drop (i - 1) = all[i - 1] :: all.drop i := by
        rw [List.drop_eq_getElem_cons (by omega)]
        congr 2
        omega
      rw [e, List.filter_cons, hfnew]
      split <;> simp
  · rw [if_neg hc]
    refine ⟨[], rfl, by simp, ?_⟩
    have : all.filter (fun q => decide (q.1 < p.1 - history)) =
        (all.take i).filter (fun q => decide (q.1 < p.1 - history)) := by
      conv => lhs; rw [← List.take_append_drop i all]
      rw [List.filter_append, hfnew, List.append_nil]
    rw [this]
    have h1 := List.length_filter_le (fun q : ℚ × α => decide (q.1 < p.1 - history)) (all.take i)
    rw [List.length_take] at h1
    omega

/-- What a plot shows: the newest points, all of those in the window among them, and at most two older ones. -/
theorem C106_plot_partial {α : Type} (history : ℚ) (hh : 0 ≤ history) (ps : List (ℚ × α)) (last : ℚ × α)
    (hs : (ps ++ [last]).Pairwise (fun a b => a.1 ≤ b.1)) :
    ∃ dropped, ps ++ [last] = dropped ++ (ps ++ [last]).foldl (plotUpdate history) [] ∧
      (∀ q ∈ dropped, q.1 < last.1 - history) ∧
      (((ps ++ [last]).foldl (plotUpdate history) []).filter (fun q => decide (q.1 < last.1 - history))).length ≤ 2 := by
  induction ps using List.reverseRecOn generalizing last with
  | nil =>
    have := plot_step history hh [] last (by simp)
    simpa using this
  | append_singleton ps p ih =>
    have hs0 : (ps ++ [p]).Pairwise (fun a b : ℚ × α => a.1 ≤ b.1) := (List.pairwise_append.1 hs).1
    obtain ⟨d, e, hd, _⟩ := ih p hs0
    rw [List.foldl_append]
    generalize (ps ++ [p]).foldl (plotUpdate history) [] = r at *
    simp only [List.foldl_cons, List.foldl_nil]
    have hpl : p.1 ≤ last.1 := (List.pairwise_append.1 hs).2.2 p (by simp) last (by simp)
    have hs1 : (r ++ [last]).Pairwise (fun a b : ℚ × α => a.1 ≤ b.1) := by
      rw [e, List.append_assoc] at hs
      exact (List.pairwise_append.1 hs).2.1
    obtain ⟨d', e', hd', hl⟩ := plot_step history hh r last hs1
    refine ⟨d ++ d', ?_, ?_, hl⟩
    · rw [e, List.append_assoc, e', List.append_assoc]
    · intro q hq
      rcases List.mem_append.1 hq with hq | hq
      · have := hd q hq
        linarith
      · exact hd' q hq

/-- Broken: the comment promises at most one point before the window; there can be two. -/
theorem C106_plot_refuted :
    ([((0 : ℚ), ()), (1, ()), (25, ())].foldl (plotUpdate 20) []) = [(0, ()), (1, ()), (25, ())] := by
  decide +kernel

/-- Means and deviations are taken over the last 100 records. -/
theorem C106_history {α : Type} (xs : List α) : xs.foldl historyUpdate [] = xs.drop (xs.length - 100) := by
  induction xs using List.reverseRecOn with
  | nil => rfl
  | append_singleton xs x ih =>
    rw [List.foldl_append, ih]
    simp only [List.foldl_cons, List.foldl_nil, historyUpdate, List.length_append, List.length_drop,
      List.length_singleton]
    by_cases h : 100 ≤ xs.length
    · rw [if_pos (by omega), List.drop_append_of_le_length (by simp; omega), List.drop_drop,
        List.drop_append_of_le_length (by omega)]
      congr 2
      omega
    · rw [if_neg (by omega)]
      have h1 : xs.length - 100 = 0 := by omega
      have h2 : xs.length + 1 - 100 = 0 := by omega
      rw [h1, h2]
      rfl

/-- the example of the documentation. -/
example : runLine 1 [2] (tx "2>d pos 0 0 nan a2 && 1>d pos 10 0 0 nan a2 && ?2 && 2>d stop") =
    [.write 2 (tx "d pos 0 0 nan a2\n"), .write 1 (tx "d pos 10 0 0 nan a2\n"), .query 2, .write 2 (tx "d stop\n")] ∧
    runLine 1 [2] (tx "d pos nan 0.5 1 s0.5 && :1000 && A> d stop") =
    [.write 1 (tx "d pos nan 0.5 1 s0.5\n"), .sleep 1000, .write 1 (tx "d stop\n"), .write 2 (tx "d stop\n")] := by
  decide +kernel

example : (Spec.Step.dev (tx "2") [] (tx "d stop")).Ok ∧ (Spec.Step.plain (tx "d stop")).Ok ∧
    (Spec.Step.delay (tx "1000")).Ok := by
  have t : tx "d stop" = [100, 32, 115, 116, 111, 112] := by decide +kernel
  have h : Spec.IsText (tx "d stop") := by
    rw [t]
    exact ⟨⟨100, _, rfl, by decide⟩, ⟨[100, 32, 115, 116, 111], 112, rfl, by decide⟩, by decide, by decide⟩
  refine ⟨⟨⟨by decide +kernel, by decide +kernel⟩, by simp [Spec.IsGap], h⟩, ⟨h, ?_⟩, by decide +kernel, by decide +kernel⟩
  rw [t]
  exact ⟨100, _, rfl, by decide, by decide, by decide, by decide⟩

/-- a question that is answered by the fourth record. -/
example : waitQuery false false [true, true, false, true, false] = some [false] := by decide

/-- a device that is silent for ten iterations is polled four times. -/
example : (pollRun ⟨0, 0⟩ (List.replicate 10 false)).2.count true = 4 := by decide

end Verif.Tool.TviewConsole
