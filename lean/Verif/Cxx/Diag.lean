import Verif.Cxx.SerialLine

/-!
# The diagnostic channel in the C++ library

Model of `DiagnosticCommand` (with `AsyncDiagnosticCommandContext`) and `DiagnosticWrite` in
`lib/cpp/mjbots/moteus/moteus.h` and of `DiagnosticResponse::Parse` in `moteus_protocol.h`.

The cycles of the transport (C102) are an input: for each read the list of frames that it returns.
A cycle reports no errors (`CHILD_Cycle` calls its callback with 0).

Property C103.
-/

namespace Verif.Cxx.Diag

open Serial (Frame)

/-! ## Model -/

/-- `MultiplexParser::ReadVaruint` (`moteus_multiplex.h` 294-310) with at most `n` bytes: the value and what
is left. -/
def varuint : ℕ → ℕ → List ℕ → ℕ × List ℕ
  | 0, _, l => (0, l)
  | _ + 1, _, [] => (0, [])
  | n + 1, shift, b :: l =>
    if b < 128 then (b * 2 ^ shift % 65536, l)
    else let r := varuint n (shift + 7) l; ((b % 128 * 2 ^ shift + r.1) % 65536, r.2)

/-- `DiagnosticResponse::Parse` (`moteus_protocol.h` 1306-1329): channel and text; `none` for channel -1. -/
def parse (data : List ℕ) : Option (ℕ × List ℕ) :=
  match data with
  | action :: channel :: l =>
    if l = [] then none
    else if action ≠ 0x41 then none
    else
      let r := varuint 5 0 l
      if r.2.length < r.1 then none else some (channel, r.2.take r.1)
  | _ => none

/-- `DiagnosticReplyMode` -/
inductive Mode
  | expectOk | singleLine
  deriving DecidableEq

/-- The controller that is addressed: `options_.id`, `options_.source`, `options_.can_prefix`. -/
structure Who where
  id : ℕ
  source : ℕ
  pre : ℕ

/-- `empty_replies`, `current_line`, `output` -/
structure St where
  empties : ℕ := 0
  line : List ℕ := []
  out : List ℕ := []
  deriving DecidableEq

/-- One reply (lines 938-956). -/
def absorb (who : Who) (s : St) (f : Frame) : St :=
  if f.source ≠ who.id ∨ f.destination ≠ who.source ∨ f.prefix ≠ who.pre then s
  else match parse f.data with
    | some (1, text) => { s with empties := if text = [] then s.empties + 1 else 0, line := s.line ++ text }
    | _ => s

def isEnd (c : ℕ) : Bool := c = 13 || c = 10

/-- `find_first_of("\r\n")`: the line, its end and what follows. -/
def cut : List ℕ → Option (List ℕ × ℕ × List ℕ)
  | [] => none
  | c :: l => if isEnd c then some ([], c, l) else (cut l).map fun r => (c :: r.1, r.2)

/-- "OK" -/
def ok : List ℕ := [79, 75]

/-- The loop over the lines (lines 958-972), with a bound on their number: the result, else what is left. -/
def scan (mode : Mode) : ℕ → St → Option (List ℕ) × St
  | 0, s => (none, s)
  | n + 1, s =>
    match cut s.line with
    | none => (none, s)
    | some (line, e, rest) =>
      if mode = .singleLine then (some line, s)
      else if line = ok then (some s.out, s)
      else scan mode n { s with line := rest, out := s.out ++ line ++ [e] }

/-- `ProcessReplies` (lines 937-975) -/
def process (who : Who) (mode : Mode) (s : St) (replies : List Frame) : Option (List ℕ) × St :=
  let s := replies.foldl (absorb who) s
  scan mode s.line.length s

inductive Outcome
  | done (result : List ℕ)
  | timeout
  /-- it has asked for one more reply -/
  | waiting
  deriving DecidableEq

/-- `DoRead` and `Callback` (lines 876-892, 913-935) for the replies to each read. -/
def reads (who : Who) (mode : Mode) : List (List Frame) → St → Outcome
  | [], s => if 5 ≤ s.empties then .timeout else .waiting
  | a :: as, s =>
    if 5 ≤ s.empties then .timeout
    else match process who mode s a with
      | (some r, _) => .done r
      | (none, s) => reads who mode as s

/-- The pieces of `DoWrite` (lines 894-911), with a bound on their number. -/
def pieces : ℕ → List ℕ → List (List ℕ)
  | 0, _ => []
  | n + 1, l => l.take 48 :: if l.drop 48 = [] then [] else pieces n (l.drop 48)

/-- `DiagnosticWrite::Make` (`moteus_protocol.h` 1274-1280) -/
def writeFrame (piece : List ℕ) : List ℕ := 0x40 :: 1 :: piece.length :: piece

/-- The frames that `AsyncDiagnosticCommand` writes (lines 505-519, 894-911). -/
def written (message : List ℕ) : List (List ℕ) := (pieces (message.length + 1) (message ++ [10])).map writeFrame

/-- `DiagnosticCommand` (lines 496-503): the error of the callback is not looked at; `none` while it
blocks. -/
def command (who : Who) (mode : Mode) (answers : List (List Frame)) : Option (List ℕ) :=
  match reads who mode answers {} with
  | .done r => some r
  | .timeout => some []
  | .waiting => none

/-! ## Specification -/

namespace Spec

/-- A frame of the controller with a text on channel 1 (up to 61 characters; what is behind it is
padding). -/
def Says (who : Who) (f : Frame) (text : List ℕ) : Prop :=
  f.source = who.id ∧ f.destination = who.source ∧ f.prefix = who.pre ∧ text.length < 128 ∧
  ∃ pad, f.data = 0x41 :: 1 :: text.length :: text ++ pad

/-- A frame that has nothing to do with the command: of another device, or no text. -/
def Foreign (who : Who) (f : Frame) : Prop :=
  f.source ≠ who.id ∨ f.destination ≠ who.source ∨ f.prefix ≠ who.pre ∨ f.data.head? ≠ some 0x41

/-- The texts of some frames. -/
inductive Texts (who : Who) : List Frame → List (List ℕ) → Prop
  | nil : Texts who [] []
  | mine {f : Frame} {fs : List Frame} {t : List ℕ} {ts : List (List ℕ)} : Says who f t → Texts who fs ts →
      Texts who (f :: fs) (t :: ts)
  | foreign {f : Frame} {fs : List Frame} {ts : List (List ℕ)} : Foreign who f → Texts who fs ts → Texts who (f :: fs) ts

/-- The texts of several reads. -/
inductive Replies (who : Who) : List (List Frame) → List (List ℕ) → Prop
  | nil : Replies who [] []
  | cons {a : List Frame} {as : List (List Frame)} {ts us : List (List ℕ)} : Texts who a ts → Replies who as us →
      Replies who (a :: as) (ts ++ us)

/-- Never five empty texts in a row. -/
def Lively (ts : List (List ℕ)) : Prop := ¬ ∃ a b, ts = a ++ List.replicate 5 [] ++ b

def End (c : ℕ) : Prop := c = 13 ∨ c = 10

/-- After `a` there is a line OK. -/
def OkAt (t a : List ℕ) : Prop :=
  (∀ c ∈ a.getLast?, End c) ∧ ∃ e rest, End e ∧ t = a ++ [79, 75] ++ e :: rest

/-- What is before the first line OK. -/
def Output (t a : List ℕ) : Prop := OkAt t a ∧ ∀ b, OkAt t b → a.length ≤ b.length

end Spec

/-! ## Writing -/

theorem pieces_spec : ∀ (n : ℕ) (l : List ℕ), l ≠ [] → l.length ≤ 48 * n →
    (pieces n l).flatten = l ∧ ∀ p ∈ pieces n l, p ≠ [] ∧ p.length ≤ 48 := by
  intro n
  induction n with
  | zero => intro l h0 h; exact absurd (List.length_eq_zero_iff.mp (by omega)) h0
  | succ n ih =>
    intro l h0 h
    rw [pieces]
    have hne : l.take 48 ≠ [] := by
      intro hh
      have := congrArg List.length hh
      have hp := List.length_pos_iff.mpr h0
      rw [List.length_take, List.length_nil] at this
      omega
    by_cases hd : l.drop 48 = []
    · rw [if_pos hd]
      refine ⟨?_, ?_⟩
      · have := List.take_append_drop 48 l
        rw [hd, List.append_nil] at this
        simpa using this
      · intro p hp
        rw [List.mem_singleton] at hp
        subst hp
        exact ⟨hne, List.length_take_le _ _⟩
    · rw [if_neg hd]
      obtain ⟨i1, i2⟩ := ih (l.drop 48) hd (by rw [List.length_drop]; omega)
      refine ⟨by rw [List.flatten_cons, i1, List.take_append_drop], ?_⟩
      intro p hp
      rcases List.mem_cons.mp hp with rfl | hp
      · exact ⟨hne, List.length_take_le _ _⟩
      · exact i2 p hp

/-- **C103** The command and a line feed are written on channel 1 in pieces that fit into frames. -/
theorem C103_written (message : List ℕ) : ∃ ps : List (List ℕ), written message = ps.map (fun p => 0x40 :: 1 :: p.length :: p) ∧
    ps.flatten = message ++ [10] ∧ ∀ p ∈ ps, p ≠ [] ∧ p.length ≤ 48 := by
  obtain ⟨h1, h2⟩ := pieces_spec (message.length + 1) (message ++ [10]) (by simp) (by rw [List.length_append, List.length_singleton]; omega)
  exact ⟨_, rfl, h1, h2⟩

/-! ## Replies -/

theorem parse_says {who : Who} {f : Frame} {t : List ℕ} (h : Spec.Says who f t) (s : St) :
    absorb who s f = { s with empties := if t = [] then s.empties + 1 else 0, line := s.line ++ t } := by
  obtain ⟨h1, h2, h3, h4, pad, h5⟩ := h
  unfold absorb
  rw [if_neg (by rintro (h | h | h) <;> contradiction), h5]
  have : parse (0x41 :: 1 :: t.length :: t ++ pad) = some (1, t) := by
    show parse (0x41 :: 1 :: t.length :: (t ++ pad)) = _
    unfold parse
    dsimp only
    rw [if_neg (by simp), if_neg (by simp)]
    have hv : varuint 5 0 (t.length :: (t ++ pad)) = (t.length, t ++ pad) := by
      rw [varuint, if_pos h4, pow_zero, Nat.mul_one, Nat.mod_eq_of_lt (by omega)]
    rw [hv]
    dsimp only
    rw [if_neg (by rw [List.length_append]; omega), List.take_left' rfl]
  rw [this]
  rfl

theorem parse_foreign {who : Who} {f : Frame} (h : Spec.Foreign who f) (s : St) : absorb who s f = s := by
  unfold absorb
  split
  · rfl
  · rename_i hn
    have hp : f.data.head? ≠ some 0x41 := by
      unfold Spec.Foreign at h
      tauto
    have : parse f.data = none := by
      unfold parse
      split
      · rename_i a c l heq
        rw [heq] at hp
        split
        · rfl
        · rw [if_pos (by simpa using hp)]
      · rfl
    rw [this]

/-- How many empty texts there are at the end of a list, if there were `n` before. -/
def trail (n : ℕ) (ts : List (List ℕ)) : ℕ := ts.foldl (fun n t => if t = [] then n + 1 else 0) n

theorem texts_absorb {who : Who} {fs : List Frame} {ts : List (List ℕ)} (h : Spec.Texts who fs ts) : ∀ (s : St),
    fs.foldl (absorb who) s = { s with empties := trail s.empties ts, line := s.line ++ ts.flatten } := by
  induction h with
  | nil => intro s; simp [trail]
  | mine h1 _ ih =>
    intro s
    rw [List.foldl_cons, parse_says h1, ih]
    simp [trail]
  | foreign h1 _ ih =>
    intro s
    rw [List.foldl_cons, parse_foreign h1, ih]

theorem trail_le (ts : List (List ℕ)) : ∀ k, k ≤ trail 0 ts → ∃ a, ts = a ++ List.replicate k [] := by
  induction ts using List.reverseRecOn with
  | nil => intro k hk; exact ⟨[], by
      have h0 : k = 0 := Nat.le_zero.mp hk
      subst h0
      rfl⟩
  | append_singleton ts t ih =>
    intro k hk
    have e : trail 0 (ts ++ [t]) = if t = [] then trail 0 ts + 1 else 0 := by
      unfold trail
      rw [List.foldl_append]
      rfl
    rw [e] at hk
    by_cases ht : t = []
    · rw [if_pos ht] at hk
      subst ht
      by_cases hk0 : k = 0
      · subst hk0; exact ⟨ts ++ [[]], by simp⟩
      · obtain ⟨a, ha⟩ := ih (k - 1) (by omega)
        refine ⟨a, ?_⟩
        obtain ⟨j, rfl⟩ : ∃ j, k = j + 1 := ⟨k - 1, by omega⟩
        rw [Nat.add_sub_cancel] at ha
        rw [ha, List.replicate_succ', List.append_assoc]
    · rw [if_neg ht] at hk
      exact ⟨ts ++ [t], by have : k = 0 := by omega
                           subst this; simp⟩

theorem trail_append (a b : List (List ℕ)) : trail (trail 0 a) b = trail 0 (a ++ b) := by
  unfold trail; rw [List.foldl_append]

theorem lively_trail {a b : List (List ℕ)} (h : Spec.Lively (a ++ b)) : ¬ 5 ≤ trail 0 a := by
  intro h5
  obtain ⟨c, hc⟩ := trail_le a 5 h5
  exact h ⟨c, b, by rw [hc]⟩

theorem isEnd_iff (c : ℕ) : isEnd c = true ↔ Spec.End c := by simp [isEnd, Spec.End]

theorem cut_none {l : List ℕ} : cut l = none ↔ ∀ c ∈ l, ¬ Spec.End c := by
  induction l with
  | nil => simp [cut]
  | cons c l ih =>
    rw [cut]
    by_cases h : isEnd c = true
    · rw [if_pos h]
      simp only [reduceCtorEq, false_iff]
      intro hh
      exact hh c (List.mem_cons_self ..) ((isEnd_iff c).mp h)
    · rw [if_neg h, Option.map_eq_none_iff, ih]
      simp only [List.mem_cons, forall_eq_or_imp]
      rw [isEnd_iff] at h
      tauto

theorem cut_some {l line rest : List ℕ} {e : ℕ} (h : cut l = some (line, e, rest)) :
    l = line ++ e :: rest ∧ Spec.End e ∧ ∀ c ∈ line, ¬ Spec.End c := by
  induction l generalizing line with
  | nil => simp [cut] at h
  | cons c l ih =>
    rw [cut] at h
    by_cases hc : isEnd c = true
    · rw [if_pos hc] at h
      simp at h
      obtain ⟨rfl, rfl, rfl⟩ := h
      exact ⟨rfl, (isEnd_iff _).mp hc, by simp⟩
    · rw [if_neg hc, Option.map_eq_some_iff] at h
      obtain ⟨⟨x, y, z⟩, hx, heq⟩ := h
      simp at heq
      obtain ⟨rfl, rfl, rfl⟩ := heq
      obtain ⟨h1, h2, h3⟩ := ih hx
      refine ⟨by rw [h1]; rfl, h2, ?_⟩
      intro d hd
      rcases List.mem_cons.mp hd with rfl | hd
      · exact fun he => hc ((isEnd_iff _).mpr he)
      · exact h3 d hd

/-! ## Lines -/

/-- The text so far is `out` and `line`, cut at the end of a line, and there is no line OK in `out`. -/
def Tidy (s : St) : Prop :=
  (∀ c ∈ s.out.getLast?, Spec.End c) ∧ ∀ a, Spec.OkAt (s.out ++ s.line) a → s.out.length ≤ a.length

theorem okAt_take {t a : List ℕ} (h : Spec.OkAt t a) : a = t.take a.length ∧ a.length + 3 ≤ t.length := by
  obtain ⟨-, e, rest, -, rfl⟩ := h
  refine ⟨by rw [List.append_assoc, List.take_left'] ; rfl, ?_⟩
  simp

theorem okAt_mono {t u a : List ℕ} (h : Spec.OkAt t a) : Spec.OkAt (t ++ u) a := by
  obtain ⟨h1, e, rest, h2, rfl⟩ := h
  exact ⟨h1, e, rest ++ u, h2, by simp⟩

theorem okAt_prefix {t u a : List ℕ} (h : Spec.OkAt (t ++ u) a) (hl : a.length + 3 ≤ t.length) : Spec.OkAt t a := by
  obtain ⟨h1, e, rest, h2, h3⟩ := h
  refine ⟨h1, e, t.drop (a.length + 3), h2, ?_⟩
  have : t = (t ++ u).take t.length := by rw [List.take_left']; rfl
  have h4 : (t ++ u).take (a.length + 3) = t.take (a.length + 3) := by
    rw [List.take_append_of_le_length hl]
  rw [h3] at h4
  have h5 : (a ++ [79, 75] ++ e :: rest).take (a.length + 3) = a ++ [79, 75] ++ [e] := by
    rw [show a ++ [79, 75] ++ e :: rest = (a ++ [79, 75] ++ [e]) ++ rest by simp]
    rw [List.take_left']
    simp
  rw [h5] at h4
  conv_lhs => rw [← List.take_append_drop (a.length + 3) t, ← h4]
  simp

/-- If a line OK begins in a line without ends before, it begins at its beginning. -/
theorem okAt_line {out line rest a : List ℕ} {e : ℕ} (ho : ∀ c ∈ out.getLast?, Spec.End c) (he : Spec.End e)
    (hl : ∀ c ∈ line, ¬ Spec.End c) (h : Spec.OkAt (out ++ line ++ e :: rest) a) (h1 : out.length ≤ a.length)
    (h2 : a.length ≤ out.length + line.length) : a = out ∧ line = [79, 75] := by
  obtain ⟨ha, e', r', he', heq⟩ := h
  have hpre : a = out ++ line.take (a.length - out.length) := by
    have := congrArg (List.take a.length) heq
    rw [List.append_assoc a, List.take_left' rfl, List.append_assoc, List.take_append, List.take_append] at this
    rw [List.take_of_length_le h1, show a.length - out.length - line.length = 0 by omega, List.take_zero, List.append_nil] at this
    exact this.symm
  have hlen : a.length = out.length := by
    by_contra hne
    have hlast : a.getLast? = (line.take (a.length - out.length)).getLast? := by
      conv_lhs => rw [hpre]
      rw [List.getLast?_append]
      have : (line.take (a.length - out.length)) ≠ [] := by
        intro h0
        have := congrArg List.length h0
        rw [List.length_take, List.length_nil] at this
        omega
      cases hx : (line.take (a.length - out.length)).getLast? with
      | none => rw [List.getLast?_eq_none_iff] at hx; exact absurd hx this
      | some x => rfl
    cases hx : (line.take (a.length - out.length)).getLast? with
    | none =>
      rw [List.getLast?_eq_none_iff] at hx
      have := congrArg List.length hx
      rw [List.length_take, List.length_nil] at this
      omega
    | some x =>
      have := ha x (by rw [hlast, hx]; rfl)
      exact hl x (List.mem_of_mem_take (List.mem_of_getLast? hx)) this
  have hao : a = out := by
    rw [hpre, hlen, Nat.sub_self, List.take_zero, List.append_nil]
  subst hao
  refine ⟨rfl, ?_⟩
  rw [List.append_assoc, List.append_assoc, List.append_cancel_left_eq] at heq
  -- line ++ e :: rest = [79,75] ++ e' :: r'
  match line, hl, heq with
  | [], _, heq =>
    simp at heq
    rw [heq.1] at he
    exact absurd he (by unfold Spec.End; omega)
  | [x], _, heq =>
    simp at heq
    rw [heq.2.1] at he
    exact absurd he (by unfold Spec.End; omega)
  | [x, y], _, heq =>
    simp at heq
    rw [heq.1, heq.2.1]
  | x :: y :: z :: l, hl, heq =>
    simp at heq
    exact absurd (heq.2.2.1 ▸ he') (hl z (by simp))

theorem scan_ok : ∀ (n : ℕ) (s : St), s.line.length ≤ n → Tidy s →
    (∀ r s', scan .expectOk n s = (some r, s') → Spec.Output (s.out ++ s.line) r) ∧
    (∀ s', scan .expectOk n s = (none, s') → s'.out ++ s'.line = s.out ++ s.line ∧ Tidy s' ∧ s'.empties = s.empties ∧
      ∀ a, ¬ Spec.OkAt (s.out ++ s.line) a) := by
  intro n
  induction n with
  | zero =>
    intro s hn ht
    have h0 : s.line = [] := List.length_eq_zero_iff.mp (by omega)
    refine ⟨by intro r s' h; simp [scan] at h, ?_⟩
    intro s' h
    simp [scan] at h
    subst h
    refine ⟨rfl, ht, rfl, ?_⟩
    intro a ha
    have h1 := ht.2 a ha
    have h2 := (okAt_take ha).2
    rw [h0, List.append_nil] at h2
    omega
  | succ n ih =>
    intro s hn ht
    rw [scan]
    cases hcut : cut s.line with
    | none =>
      dsimp only
      refine ⟨by intro r s' h; simp at h, ?_⟩
      intro s' h
      simp at h
      subst h
      refine ⟨rfl, ht, rfl, ?_⟩
      intro a ha
      have hends := cut_none.mp hcut
      have h1 := ht.2 a ha
      obtain ⟨-, e, rest, he, heq⟩ := ha
      have hm : e ∈ s.line := by
        have h3 : (s.out ++ s.line)[a.length + 2]? = some e := by rw [heq]; simp
        rw [List.getElem?_append_right (by omega)] at h3
        exact List.mem_of_getElem? h3
      exact hends e hm he
    | some v =>
      obtain ⟨line, e, rest⟩ := v
      dsimp only
      obtain ⟨c1, c2, c3⟩ := cut_some hcut
      rw [if_neg (by decide)]
      by_cases hok : line = ok
      · rw [if_pos hok]
        refine ⟨?_, by intro s' h; simp at h⟩
        intro r s' h
        simp at h
        obtain ⟨rfl, rfl⟩ := h
        refine ⟨⟨ht.1, e, rest, c2, by rw [c1, hok]; simp [ok]⟩, ht.2⟩
      · rw [if_neg hok]
        have htot : s.out ++ line ++ [e] ++ rest = s.out ++ s.line := by rw [c1]; simp
        have ht' : Tidy { s with line := rest, out := s.out ++ line ++ [e] } := by
          refine ⟨?_, ?_⟩
          · intro c hc
            rw [List.getLast?_append] at hc
            simp at hc
            subst hc
            exact c2
          · intro a ha
            change Spec.OkAt (s.out ++ line ++ [e] ++ rest) a at ha
            show (s.out ++ line ++ [e]).length ≤ a.length
            by_contra hlt
            rw [List.length_append, List.length_append, List.length_singleton] at hlt
            have h1 := ht.2 a (by rw [← htot]; exact ha)
            have := okAt_line (rest := rest) ht.1 c2 c3 (by rw [show s.out ++ line ++ e :: rest = s.out ++ line ++ [e] ++ rest by simp]; exact ha) h1 (by omega)
            exact hok this.2
        have hlen : rest.length ≤ n := by
          have := congrArg List.length c1
          rw [List.length_append, List.length_cons] at this
          omega
        obtain ⟨i1, i2⟩ := ih { s with line := rest, out := s.out ++ line ++ [e] } hlen ht'
        dsimp only at i1 i2
        rw [htot] at i1 i2
        exact ⟨i1, i2⟩

/-- **C103** The result of a command is the text before the first line OK, however the controller and
the bus cut it, and whatever other frames there are. -/
theorem C103_output_partial (who : Who) (answers : List (List Frame)) (ts : List (List ℕ)) (a : List ℕ)
    (h : Spec.Replies who answers ts) (hl : Spec.Lively ts) (ho : Spec.Output ts.flatten a) :
    reads who .expectOk answers {} = .done a := by
  have key : ∀ (answers : List (List Frame)) (us : List (List ℕ)), Spec.Replies who answers us →
      ∀ (past : List (List ℕ)) (s : St), Spec.Lively (past ++ us) → Spec.Output (past ++ us).flatten a →
      s.out ++ s.line = past.flatten → s.empties = trail 0 past → Tidy s → (∀ b, ¬ Spec.OkAt past.flatten b) →
      reads who .expectOk answers s = .done a := by
    intro answers us h
    induction h with
    | nil =>
      intro past s _ ho _ _ _ hn
      rw [List.append_nil] at ho
      exact absurd ho.1 (hn a)
    | @cons fs fss ts us h1 h2 ih =>
      intro past s hl ho ht he htidy hn
      rw [reads, if_neg (by rw [he]; exact lively_trail hl)]
      have habs := texts_absorb h1 s
      have htot : s.out ++ (s.line ++ ts.flatten) = (past ++ ts).flatten := by
        rw [← List.append_assoc, ht, List.flatten_append]
      have htidy' : Tidy { s with empties := trail s.empties ts, line := s.line ++ ts.flatten } := by
        refine ⟨htidy.1, ?_⟩
        intro b hb
        change Spec.OkAt (s.out ++ (s.line ++ ts.flatten)) b at hb
        by_contra hlt
        change ¬ s.out.length ≤ b.length at hlt
        rw [← List.append_assoc] at hb
        have hb' := hb
        obtain ⟨hbl, e, r, hbe, heq⟩ := hb'
        -- a line OK that begins before `out` ends would end in `out`
        by_cases hfit : b.length + 3 ≤ (s.out ++ s.line).length
        · exact absurd (okAt_prefix hb hfit) (by rw [ht]; exact hn b)
        · have hol : s.out.length - 1 < s.out.length := by omega
          have hlast : s.out.getLast? = some s.out[s.out.length - 1] := by
            rw [List.getLast?_eq_getElem?, List.getElem?_eq_getElem hol]
          have hend := htidy.1 _ (by rw [hlast]; rfl)
          have hat : (s.out ++ s.line ++ ts.flatten)[s.out.length - 1]? = some s.out[s.out.length - 1] := by
            rw [List.append_assoc, List.getElem?_append_left hol, List.getElem?_eq_getElem hol]
          rw [heq] at hat
          rw [List.length_append] at hfit
          have hcase : s.out.length - 1 = b.length ∨ s.out.length - 1 = b.length + 1 := by omega
          rcases hcase with hc | hc
          · have hz : (b ++ [79, 75] ++ e :: r)[s.out.length - 1]? = some 79 := by rw [hc]; simp
            rw [hz] at hat
            rw [← Option.some.inj hat] at hend
            exact absurd hend (by unfold Spec.End; omega)
          · have hz : (b ++ [79, 75] ++ e :: r)[s.out.length - 1]? = some 75 := by rw [hc]; simp
            rw [hz] at hat
            rw [← Option.some.inj hat] at hend
            exact absurd hend (by unfold Spec.End; omega)
      obtain ⟨s1, s2⟩ := scan_ok (s.line ++ ts.flatten).length
        { s with empties := trail s.empties ts, line := s.line ++ ts.flatten } (Nat.le_refl _) htidy'
      dsimp only at s1 s2
      rw [htot] at s1 s2
      have hproc : process who .expectOk s fs = scan .expectOk (s.line ++ ts.flatten).length
          { s with empties := trail s.empties ts, line := s.line ++ ts.flatten } := by
        unfold process
        rw [habs]
      rw [hproc]
      have hall : (past ++ (ts ++ us)).flatten = (past ++ ts).flatten ++ us.flatten := by simp
      cases hsc : scan .expectOk (s.line ++ ts.flatten).length
          { s with empties := trail s.empties ts, line := s.line ++ ts.flatten } with
      | mk res s' =>
        cases res with
        | some r =>
          dsimp only
          obtain ⟨o1, o2⟩ := s1 r s' hsc
          rw [hall] at ho
          have e1 := ho.2 r (okAt_mono o1)
          have e2 := o2 a (okAt_prefix ho.1 (by have := (okAt_take o1).2; omega))
          have e3 := (okAt_take ho.1).1
          have e4 := (okAt_take (okAt_mono (u := us.flatten) o1)).1
          rw [show a.length = r.length by omega, ← e4] at e3
          rw [e3]
        | none =>
          dsimp only
          obtain ⟨p1, p2, p3, p4⟩ := s2 s' hsc
          refine ih (past ++ ts) s' (by rw [List.append_assoc]; exact hl) (by rw [List.append_assoc]; exact ho) p1 ?_ p2 p4
          rw [p3, he, trail_append]
  refine key answers ts h [] {} hl ho rfl rfl ⟨by simp, ?_⟩ ?_
  · intro b hb; exact Nat.zero_le _
  · intro b hb
    have := (okAt_take hb).2
    simp at this

/-- **C103** Where a single line is expected, the result is the first line. -/
theorem C103_line_partial (who : Who) (answers : List (List Frame)) (ts : List (List ℕ)) (l rest : List ℕ) (e : ℕ)
    (h : Spec.Replies who answers ts) (hl : Spec.Lively ts) (he : Spec.End e) (hn : ∀ c ∈ l, ¬ Spec.End c)
    (ht : ts.flatten = l ++ e :: rest) : reads who .singleLine answers {} = .done l := by
  have hcut : ∀ (u v : List ℕ), u ++ v = l ++ e :: rest → (∀ c ∈ u, ¬ Spec.End c) ∨ ∃ e' r, cut u = some (l, e', r) := by
    intro u v huv
    cases hc : cut u with
    | none => exact Or.inl (cut_none.mp hc)
    | some w =>
      obtain ⟨line, e', r⟩ := w
      right
      obtain ⟨c1, c2, c3⟩ := cut_some hc
      refine ⟨e', r, ?_⟩
      have hx : line = l := by
        rw [c1, List.append_assoc] at huv
        have key : ∀ (x y : List ℕ) (p q : ℕ) (xs ys : List ℕ), (∀ c ∈ x, ¬ Spec.End c) → (∀ c ∈ y, ¬ Spec.End c) →
            Spec.End p → Spec.End q → x ++ p :: xs = y ++ q :: ys → x = y := by
          intro x
          induction x with
          | nil =>
            intro y p q xs ys _ hy hp _ hh
            cases y with
            | nil => rfl
            | cons b y => simp at hh; exact absurd (hh.1 ▸ hp) (hy b (by simp))
          | cons b x ih =>
            intro y p q xs ys hx hy hp hq hh
            cases y with
            | nil => simp at hh; exact absurd (hh.1 ▸ hq) (hx b (by simp))
            | cons c y =>
              simp at hh
              rw [hh.1, ih y p q xs ys (fun c hc => hx c (by simp [hc])) (fun c hc => hy c (by simp [hc])) hp hq hh.2]
        exact key line l e' e (r ++ v) rest c3 hn c2 he (by simpa using huv)
      rw [hx]
  have key : ∀ (answers : List (List Frame)) (us : List (List ℕ)), Spec.Replies who answers us →
      ∀ (past : List (List ℕ)) (s : St), Spec.Lively (past ++ us) → (past ++ us).flatten = l ++ e :: rest →
      s.line = past.flatten → s.empties = trail 0 past → (∀ c ∈ past.flatten, ¬ Spec.End c) →
      reads who .singleLine answers s = .done l := by
    intro answers us h
    induction h with
    | nil =>
      intro past s _ ho _ _ hno
      rw [List.append_nil] at ho
      exact absurd he (hno e (by rw [ho]; simp))
    | @cons fs fss ts us h1 h2 ih =>
      intro past s hl ho hs hem hno
      rw [reads, if_neg (by rw [hem]; exact lively_trail hl)]
      have habs := texts_absorb h1 s
      have hline : s.line ++ ts.flatten = (past ++ ts).flatten := by rw [hs, List.flatten_append]
      have hproc : process who .singleLine s fs = scan .singleLine (past ++ ts).flatten.length
          { s with empties := trail s.empties ts, line := (past ++ ts).flatten } := by
        unfold process
        rw [habs, hline]
      rw [hproc]
      have hsplit : (past ++ ts).flatten ++ us.flatten = l ++ e :: rest := by rw [← ho]; simp
      rcases hcut _ _ hsplit with hno' | ⟨e', r, hc⟩
      · have hsc : scan .singleLine (past ++ ts).flatten.length
            { s with empties := trail s.empties ts, line := (past ++ ts).flatten } =
            (none, { s with empties := trail s.empties ts, line := (past ++ ts).flatten }) := by
          cases (past ++ ts).flatten.length with
          | zero => rfl
          | succ n => rw [scan]; simp only [cut_none.mpr hno']
        rw [hsc]
        dsimp only
        exact ih (past ++ ts) _ (by rw [List.append_assoc]; exact hl) (by rw [List.append_assoc]; exact ho) rfl
          (by show trail s.empties ts = _; rw [hem, trail_append]) hno'
      · have hpos : ∃ n, (past ++ ts).flatten.length = n + 1 := by
          have := (cut_some hc).1
          refine ⟨(past ++ ts).flatten.length - 1, ?_⟩
          have h3 := congrArg List.length this
          rw [List.length_append, List.length_cons] at h3
          omega
        obtain ⟨n, hpos⟩ := hpos
        rw [hpos, scan]
        simp only [hc, if_true]
  exact key answers ts h [] {} hl ht rfl rfl (by simp)

/-- **C103** Five empty replies in a row end a command without result. -/
theorem C103_timeout (who : Who) (mode : Mode) (f : Frame) (hf : Spec.Says who f []) (rest : List (List Frame)) :
    reads who mode (List.replicate 5 [f] ++ rest) {} = .timeout := by
  have hstep : ∀ (n : ℕ) (as : List (List Frame)), n < 5 →
      reads who mode ([f] :: as) { empties := n } = reads who mode as { empties := n + 1 } := by
    intro n as hn
    rw [reads, if_neg (by show ¬ 5 ≤ n; omega)]
    have : process who mode { empties := n } [f] = (none, { empties := n + 1 }) := by
      unfold process
      rw [List.foldl_cons, List.foldl_nil, parse_says hf]
      rfl
    rw [this]
  show reads who mode ([f] :: [f] :: [f] :: [f] :: [f] :: rest) { empties := 0 } = _
  rw [hstep 0 _ (by omega), hstep 1 _ (by omega), hstep 2 _ (by omega), hstep 3 _ (by omega), hstep 4 _ (by omega)]
  cases rest <;> simp [reads]

/-! ## Where it fails -/

/-- **C103 refuted** If the controller does not answer, a command never ends. -/
theorem C103_absent_refuted (who : Who) (mode : Mode) (answers : List (List Frame))
    (h : ∀ a ∈ answers, ∀ f ∈ a, Spec.Foreign who f) : command who mode answers = none := by
  have key : ∀ (answers : List (List Frame)), (∀ a ∈ answers, ∀ f ∈ a, Spec.Foreign who f) →
      reads who mode answers {} = .waiting := by
    intro answers
    induction answers with
    | nil => intro _; rw [reads]; simp
    | cons a as ih =>
      intro h
      rw [reads, if_neg (by decide)]
      have hfold : ∀ (fs : List Frame), (∀ f ∈ fs, Spec.Foreign who f) → fs.foldl (absorb who) {} = {} := by
        intro fs
        induction fs with
        | nil => intro _; rfl
        | cons f fs ih => intro hf; rw [List.foldl_cons, parse_foreign (hf f (by simp))]; exact ih (fun g hg => hf g (by simp [hg]))
      have : process who mode {} a = (none, {}) := by
        unfold process
        rw [hfold a (h a (by simp))]
        rfl
      rw [this]
      exact ih (fun b hb => h b (by simp [hb]))
  unfold command
  rw [key answers h]

/-- A reply of controller 1 to the host. -/
def replyText (text : List ℕ) : Frame := { id := 0x100, data := 0x41 :: 1 :: text.length :: text }

def text (s : String) : List ℕ := s.toList.map Char.toNat

/-- **C103 refuted** A command that fails looks like one that succeeds without output. -/
theorem C103_error_refuted :
    command ⟨1, 0, 0⟩ .expectOk ([replyText (text "ERR unknown command\r\n")] :: List.replicate 5 [replyText []]) = some [] ∧
    command ⟨1, 0, 0⟩ .expectOk [[replyText (text "OK\r\n")]] = some [] := by decide +kernel

/-- **C103 refuted** What is left of the command before, even only the line feed of its OK, is taken for the
result. -/
theorem C103_left_refuted :
    command ⟨1, 0, 0⟩ .expectOk [[replyText (text "OK\r")], [replyText (text "\n1.5\r\n")]] = some [] ∧
    command ⟨1, 0, 0⟩ .singleLine [[replyText (text "\n1.5\r\n")]] = some [] ∧
    command ⟨1, 0, 0⟩ .expectOk [[replyText (text "OK\r\nerror 1\r\nOK\r\n")]] = some [] := by decide +kernel

/-- A command with output in several frames, between frames of others. -/
example : command ⟨1, 0, 0⟩ .expectOk [[replyText (text "a 1\r")], [], [{ id := 0x200, data := [0x41, 1, 1, 79] }, replyText []],
    [replyText (text "\nb 2\r\nO"), replyText (text "K\r\n")]] = some (text "a 1\r\nb 2\r\n") := by decide +kernel

/-- The hypotheses of `C103_output_partial` can be met. -/
example : Spec.Replies ⟨1, 0, 0⟩ [[replyText (text "x\nOK\n")]] [text "x\nOK\n"] ∧ Spec.Lively [text "x\nOK\n"] ∧
    Spec.OkAt (text "x\nOK\n") (text "x\n") := by
  refine ⟨.cons (.mine ⟨by decide, by decide, by decide, by decide, [], by decide⟩ .nil) .nil, ?_, ?_, 10, [], Or.inr rfl, by decide⟩
  · rintro ⟨a, b, h⟩
    have := congrArg List.length h
    simp at this
    omega
  · intro c hc
    have : c = 10 := by revert hc; simp [text]; omega
    exact Or.inr this

end Verif.Cxx.Diag
