import Verif.Cxx.SerialLine

/-!
# A cycle of the C++ transports

Model of `TimeoutTransport` in `lib/cpp/mjbots/moteus/moteus_transport.h` (`CHILD_Cycle`,
`CHILD_CheckReplies`) with the reads of `Fdcanusb` and `Socketcan`, and of `FindResult` in
`moteus.h`.

What the device delivers is a list of reads: when the data are there, what they contain, and how
long their treatment takes.  Besides that no time passes, except in `ppoll`, which sleeps for exactly
the time it is told to.  Interrupted calls of `ppoll`, and failing system calls, are left out.

Property C102.
-/

namespace Verif.Cxx.Cycle

open Serial (Frame)

/-! ## Model -/

/-- `TimeoutTransport::Options` (lines 225-238) -/
structure Opts where
  minOk : ℕ := 1000000
  minRcv : ℕ := 5000000
  rxExtra : ℕ := 5000000
  maxPipeline : ℤ := -1

/-- What one call of `CHILD_ConsumeData` finds: the frames and the number of OKs (`Fdcanusb`, lines
535-558: what C101 makes of the lines; `Socketcan`, lines 848-885: one frame, which also counts as
OK).  Nothing of both for other lines, and at the end of the file. -/
structure Read where
  «at» : ℕ
  frames : List Frame
  oks : ℕ := 0
  took : ℕ := 0

/-- A frame to send: its destination (not negative) and whether it requires a reply. -/
structure Cmd where
  dest : ℕ
  reply : Bool
  frame : Frame
  deriving DecidableEq

structure Out where
  now : ℕ
  rest : List Read
  frames : List Frame
  counts : List ℕ

/-- Lines 628-634: one reply less is expected of the source. -/
def dec (counts : List ℕ) (f : Frame) : List ℕ := counts.modify f.source (· - 1)

/-- The loop of `CHILD_CheckReplies` (lines 371-406); `want` is `replies != nullptr`, `wait` is
`kWait`. -/
def check (o : Opts) (want wait : Bool) (expOk : ℕ) : List ℕ → ℕ → ℕ → ℕ → List Read → Out
  | counts, now, fin, _, [] => ⟨max now fin, [], [], counts⟩
  | counts, now, fin, ok, r :: rs =>
    if max now fin < r.at then ⟨max now fin, r :: rs, [], counts⟩
    else
      let counts := r.frames.foldl dec counts
      let t := max now r.at + r.took
      if wait && counts.all (· = 0) && decide (expOk ≤ ok + r.oks) then ⟨t, rs, r.frames, counts⟩
      else
        let out := check o want wait expOk counts t
          (if (want && !r.frames.isEmpty) || r.oks ≠ 0 then t + o.rxExtra else fin) (ok + r.oks) rs
        { out with frames := r.frames ++ out.frames }

/-- Lines 320-326: one reply more is expected of the destination. -/
def expect (counts : List ℕ) (c : Cmd) : List ℕ :=
  if c.reply then
    (counts ++ List.replicate (c.dest + 1 - counts.length) 0).modify c.dest (· + 1)
  else counts

structure World where
  now : ℕ
  reads : List Read
  /-- `expected_reply_count_` -/
  counts : List ℕ := []

inductive Ev
  | sent (t : ℕ) (c : Cmd)
  | got (f : Frame)
  deriving DecidableEq

/-- One pass of the loop of `CHILD_Cycle` (lines 314-334): send, then `CHILD_CheckReplies` with its
first time (lines 358-363). -/
def round (o : Opts) (want : Bool) (g : List Cmd) (w : World) : List Ev × World :=
  let counts := g.foldl expect (w.counts.map fun _ => 0)
  let wait := max (if g.length ≠ 0 then o.minOk else 0) (if counts.any (· ≠ 0) then o.minRcv else 0)
  let out := check o want true g.length counts w.now (w.now + wait) 0 w.reads
  (g.map (.sent w.now) ++ out.frames.map .got, ⟨out.now, out.rest, out.counts⟩)

/-- The loop of `CHILD_Cycle` (lines 313-335); `none` if it has not ended after some passes. -/
def loop (o : Opts) (want : Bool) (cmds : List Cmd) (advance : ℕ) : ℕ → ℕ → World → Option (List Ev × World)
  | 0, _, _ => none
  | n + 1, start, w =>
    if start < cmds.length then
      let r := round o want ((cmds.drop start).take advance) w
      (loop o want cmds advance n (start + advance) r.2).map fun x => (r.1 ++ x.1, x.2)
    else some ([], w)

/-- `CHILD_CheckReplies(replies, kFlush, 0, nullptr)` (line 308) -/
def flush (o : Opts) (want : Bool) (w : World) : List Ev × World :=
  let out := check o want false 0 [] w.now (w.now + 5000) 0 w.reads
  (out.frames.map .got, ⟨out.now, out.rest, w.counts⟩)

/-- `CHILD_Cycle` (lines 303-338): what happened, and the state. -/
def cycle (o : Opts) (want : Bool) (cmds : List Cmd) (fuel : ℕ) (w : World) : Option (List Ev × World) :=
  let f := flush o want w
  let advance := if o.maxPipeline < 0 then cmds.length else o.maxPipeline.toNat
  (loop o want cmds advance fuel 0 f.2).map fun x => (f.1 ++ x.1, x.2)

/-- `replies` -/
def replies (log : List Ev) : List Frame := log.filterMap fun | .got f => some f | .sent _ _ => none

/-- `FindResult` (`moteus.h` 1040-1056) -/
def findResult (id source pre : ℕ) (replies : List Frame) : Option Frame :=
  replies.reverse.find? fun f => f.source = id && f.destination = source && f.prefix = pre

/-! ## Specification -/

namespace Spec

/-- The frames of some reads. -/
def received (rs : List Read) : List Frame := rs.flatMap (·.frames)

/-- Every command got an OK, and of every device there are as many frames as commands that require a
reply. -/
def Complete (g : List Cmd) (rs : List Read) : Prop :=
  (∀ d, (g.filter fun c => c.reply && c.dest = d).length ≤ ((received rs).filter fun f => f.source = d).length) ∧
  g.length ≤ (rs.map (·.oks)).sum

/-- When the treatment of some reads ends. -/
def finish (now : ℕ) (rs : List Read) : ℕ := rs.foldl (fun t r => max t r.at + r.took) now

/-- How long a device has for its first sign of life. -/
def patience (o : Opts) (g : List Cmd) : ℕ := if ∃ c ∈ g, c.reply then max o.minOk o.minRcv else o.minOk

/-- A read that shows that the device is alive. -/
def Useful (want : Bool) (r : Read) : Prop := (want ∧ r.frames ≠ []) ∨ r.oks ≠ 0

/-- The next data come too late: after `rxExtra` from every sign of life, and after the patience if
there was none. -/
def Silence (o : Opts) (want : Bool) (fin : ℕ) (seen rest : List Read) (t : ℕ) : Prop :=
  (fin ≤ t ∨ ∃ r ∈ seen, Useful want r) ∧ (∀ r ∈ seen, Useful want r → r.at + r.took + o.rxExtra ≤ t) ∧ ∀ r ∈ rest.head?, t < r.at

/-- The answers to some commands: everything that is read until all of them are answered, or until
silence. -/
def Round (o : Opts) (want : Bool) (w : World) (g : List Cmd) (fs : List Frame) (w' : World) : Prop :=
  ∃ k ≤ w.reads.length, fs = received (w.reads.take k) ∧ w'.reads = w.reads.drop k ∧
    (0 < k → ∀ r ∈ w.reads.head?, r.at ≤ w.now + patience o g) ∧
    (∀ j, 0 < j → j < k → ¬ Complete g (w.reads.take j)) ∧
    ((0 < k ∧ Complete g (w.reads.take k) ∧ w'.now = finish w.now (w.reads.take k)) ∨
     ((0 < k → ¬ Complete g (w.reads.take k)) ∧
      Silence o want (w.now + patience o g) (w.reads.take k) (w.reads.drop k) w'.now ∧
      (k = 0 → w'.now = w.now + patience o g) ∧
      w'.now ≤ max (w.now + patience o g) (finish w.now (w.reads.take k) + o.rxExtra)))

/-- Groups of commands one after the other, and what happened. -/
inductive Rounds (R : World → List Cmd → List Frame → World → Prop) :
    World → List (List Cmd) → List Ev → World → Prop
  | nil (w : World) : Rounds R w [] [] w
  | cons {w w1 w2 : World} {g : List Cmd} {gs : List (List Cmd)} {fs : List Frame} {log : List Ev} :
      R w g fs w1 → Rounds R w1 gs log w2 → Rounds R w (g :: gs) (g.map (.sent w.now) ++ fs.map .got ++ log) w2

end Spec

/-! ## The counters -/

theorem getD_modify (l : List ℕ) (s d : ℕ) (f : ℕ → ℕ) (h : s < l.length ∨ f 0 = 0) :
    (l.modify s f).getD d 0 = if d = s then f (l.getD d 0) else l.getD d 0 := by
  rw [List.getD_eq_getElem?_getD, List.getD_eq_getElem?_getD, List.getElem?_modify]
  by_cases hd : d = s
  · subst hd
    simp only [if_true]
    cases hl : l[d]? with
    | some x => rfl
    | none =>
      rcases h with h | h
      · rw [List.getElem?_eq_none_iff] at hl; omega
      · simp [h]
  · have hs : ¬ s = d := fun h => hd h.symm
    simp only [hs, hd, if_false]
    cases l[d]? <;> rfl

theorem getD_dec (fs : List Frame) : ∀ (counts : List ℕ) (d : ℕ),
    (fs.foldl dec counts).getD d 0 = counts.getD d 0 - (fs.filter fun f => f.source = d).length := by
  induction fs with
  | nil => intro counts d; simp
  | cons f fs ih =>
    intro counts d
    rw [List.foldl_cons, ih]
    unfold dec
    rw [getD_modify _ _ _ _ (Or.inr rfl), List.filter_cons]
    by_cases h : d = f.source
    · rw [if_pos h, if_pos (by simp [h]), List.length_cons]
      omega
    · rw [if_neg h, if_neg (by simpa using fun hh => h hh.symm)]

theorem getD_expect (g : List Cmd) : ∀ (counts : List ℕ) (d : ℕ),
    (g.foldl expect counts).getD d 0 = counts.getD d 0 + (g.filter fun c => c.reply && c.dest = d).length := by
  induction g with
  | nil => intro counts d; simp
  | cons c g ih =>
    intro counts d
    rw [List.foldl_cons, ih, List.filter_cons]
    unfold expect
    cases hr : c.reply with
    | false => simp
    | true =>
      rw [if_pos rfl, getD_modify _ _ _ _ (Or.inl (by rw [List.length_append, List.length_replicate]; omega))]
      have hp : (counts ++ List.replicate (c.dest + 1 - counts.length) 0).getD d 0 = counts.getD d 0 := by
        rw [List.getD_eq_getElem?_getD, List.getD_eq_getElem?_getD, List.getElem?_append]
        split
        · rfl
        · rename_i h
          rw [List.getElem?_replicate, List.getElem?_eq_none (by omega)]
          split <;> rfl
      rw [hp]
      by_cases h : d = c.dest
      · rw [if_pos h, if_pos (by simp [h]), List.length_cons]
        omega
      · rw [if_neg h, if_neg (by simpa using fun hh => h hh.symm)]

theorem getD_zeros (l : List ℕ) (d : ℕ) : (l.map fun _ => 0).getD d 0 = 0 := by
  rw [List.getD_eq_getElem?_getD, List.getElem?_map]
  cases l[d]? <;> rfl

theorem all_zero (l : List ℕ) : l.all (· = 0) = true ↔ ∀ d, l.getD d 0 = 0 := by
  rw [List.all_eq_true]
  constructor
  · intro h d
    rw [List.getD_eq_getElem?_getD]
    cases hd : l[d]? with
    | none => rfl
    | some x => simpa using h x (List.mem_of_getElem? hd)
  · intro h x hx
    obtain ⟨d, hd, rfl⟩ := List.getElem_of_mem hx
    have := h d
    rw [List.getD_eq_getElem?_getD, List.getElem?_eq_getElem hd] at this
    simpa using this

/-! ## One check -/

theorem received_append (a b : List Read) : Spec.received (a ++ b) = Spec.received a ++ Spec.received b :=
  List.flatMap_append

/-- What `check` does after the reads `past`. -/
theorem check_spec (o : Opts) (want wait : Bool) (g : List Cmd) :
    ∀ (reads past : List Read) (counts : List ℕ) (now fin : ℕ),
    (∀ d, counts.getD d 0 =
      (g.filter fun c => c.reply && c.dest = d).length - ((Spec.received past).filter fun f => f.source = d).length) →
    ∃ k ≤ reads.length,
      let out := check o want wait g.length counts now fin (past.map (·.oks)).sum reads
      out.frames = Spec.received (reads.take k) ∧ out.rest = reads.drop k ∧
      (0 < k → ∀ r ∈ reads.head?, r.at ≤ max now fin) ∧
      (∀ j, 0 < j → j < k → wait = true → ¬ Spec.Complete g (past ++ reads.take j)) ∧
      ((wait = true ∧ 0 < k ∧ Spec.Complete g (past ++ reads.take k) ∧ out.now = Spec.finish now (reads.take k)) ∨
       ((0 < k → wait = true → ¬ Spec.Complete g (past ++ reads.take k)) ∧
        (fin ≤ out.now ∨ now + o.rxExtra ≤ out.now) ∧ Spec.Silence o want fin (reads.take k) (reads.drop k) out.now ∧
        (k = 0 → out.now = max now fin) ∧ (k ≠ 0 → out.now ≤ max fin (Spec.finish now (reads.take k) + o.rxExtra)))) := by
  intro reads
  induction reads with
  | nil =>
    intro past counts now fin _
    refine ⟨0, Nat.le_refl _, rfl, rfl, fun h => absurd h (by omega), fun j h1 h2 => absurd h2 (by omega),
      Or.inr ⟨fun h => absurd h (by omega), ?_, ?_, fun _ => rfl, fun h => absurd rfl h⟩⟩
    · exact Or.inl (Nat.le_max_right _ _)
    · exact ⟨Or.inl (Nat.le_max_right _ _), by simp, by simp⟩
  | cons r rs ih =>
    intro past counts now fin hc
    dsimp only
    rw [check]
    by_cases hlate : max now fin < r.at
    · rw [if_pos hlate]
      refine ⟨0, Nat.zero_le _, rfl, rfl, fun h => absurd h (by omega), fun j h1 h2 => absurd h2 (by omega),
      Or.inr ⟨fun h => absurd h (by omega), ?_, ?_, fun _ => rfl, fun h => absurd rfl h⟩⟩
      · exact Or.inl (Nat.le_max_right _ _)
      · refine ⟨Or.inl (Nat.le_max_right _ _), by simp, ?_⟩
        intro x hx
        simp at hx
        subst hx
        exact hlate
    · rw [if_neg hlate]
      dsimp only
      have hc' : ∀ d, (r.frames.foldl dec counts).getD d 0 =
          (g.filter fun c => c.reply && c.dest = d).length -
            ((Spec.received (past ++ [r])).filter fun f => f.source = d).length := by
        intro d
        rw [getD_dec, hc, received_append, List.filter_append, List.length_append]
        have : Spec.received [r] = r.frames := by simp [Spec.received]
        rw [this]
        omega
      have hoks : (past.map (·.oks)).sum + r.oks = ((past ++ [r]).map (·.oks)).sum := by simp
      have hcomp : ((r.frames.foldl dec counts).all (· = 0) && decide (g.length ≤ (past.map (·.oks)).sum + r.oks)) = true ↔
          Spec.Complete g (past ++ [r]) := by
        rw [Bool.and_eq_true, all_zero, decide_eq_true_eq, hoks]
        unfold Spec.Complete
        constructor
        · rintro ⟨h1, h2⟩
          refine ⟨fun d => ?_, h2⟩
          have := h1 d
          rw [hc'] at this
          omega
        · rintro ⟨h1, h2⟩
          refine ⟨fun d => ?_, h2⟩
          rw [hc']
          have := h1 d
          omega
      by_cases hdone : (wait && (r.frames.foldl dec counts).all (· = 0) && decide (g.length ≤ (past.map (·.oks)).sum + r.oks)) = true
      · rw [if_pos hdone]
        rw [Bool.and_assoc, Bool.and_eq_true, hcomp] at hdone
        refine ⟨1, by simp, by simp [Spec.received], rfl, fun _ x hx => by simp at hx; subst hx; omega,
          fun j h1 h2 => absurd h2 (by omega), Or.inl ⟨hdone.1, Nat.one_pos, ?_, ?_⟩⟩
        · exact hdone.2
        · rfl
      · rw [if_neg hdone]
        have hnot : wait = true → ¬ Spec.Complete g (past ++ [r]) := by
          intro hw hx
          apply hdone
          rw [Bool.and_assoc, Bool.and_eq_true, hcomp]
          exact ⟨hw, hx⟩
        dsimp only
        rw [hoks]
        obtain ⟨fin', hf, hfu⟩ : ∃ fin', (if ((want && !r.frames.isEmpty) || decide (r.oks ≠ 0)) = true then
            max now r.at + r.took + o.rxExtra else fin) = fin' ∧
            ((Spec.Useful want r ∧ fin' = max now r.at + r.took + o.rxExtra) ∨ (¬ Spec.Useful want r ∧ fin' = fin)) := by
          have hiff : ((want && !r.frames.isEmpty) || decide (r.oks ≠ 0)) = true ↔ Spec.Useful want r := by
            unfold Spec.Useful
            simp
          refine ⟨_, rfl, ?_⟩
          by_cases hu : Spec.Useful want r
          · rw [if_pos (hiff.mpr hu)]; exact Or.inl ⟨hu, rfl⟩
          · rw [if_neg (fun h => hu (hiff.mp h))]; exact Or.inr ⟨hu, rfl⟩
        rw [hf]
        obtain ⟨k, hk, h1, h2, -, h3, h4⟩ := ih (past ++ [r]) (r.frames.foldl dec counts) (max now r.at + r.took) fin' hc'
        generalize check o want wait g.length (r.frames.foldl dec counts) (max now r.at + r.took) fin'
          ((past ++ [r]).map (·.oks)).sum rs = out at h1 h2 h4 ⊢
        have hass : ∀ j, past ++ [r] ++ rs.take j = past ++ (r :: rs).take (j + 1) := by
          intro j; rw [List.append_assoc]; rfl
        have hfin : ∀ j, Spec.finish (max now r.at + r.took) (rs.take j) = Spec.finish now ((r :: rs).take (j + 1)) := fun j => rfl
        refine ⟨k + 1, by simpa using hk, ?_, h2, fun _ x hx => by simp at hx; subst hx; omega, ?_, ?_⟩
        · rw [h1, List.take_succ_cons]; simp [Spec.received]
        · intro j hj0 hj hw
          obtain ⟨j, rfl⟩ : ∃ i, j = i + 1 := ⟨j - 1, by omega⟩
          by_cases hj1 : j = 0
          · subst hj1
            exact hnot hw
          · rw [← hass]
            exact h3 j (by omega) (by omega) hw
        · rw [← hfin]
          rcases h4 with ⟨hw, hk0, hC, hn⟩ | ⟨hC, hn, ⟨hs1, hs2, hs3⟩, hm0, hm⟩
          · left
            rw [hass] at hC
            exact ⟨hw, Nat.succ_pos _, hC, hn⟩
          · right
            refine ⟨?_, by rcases hfu with h | h <;> omega, ⟨?_, ?_, ?_⟩, fun h => absurd h (by omega), fun _ => ?_⟩
            · intro _ hw
              by_cases hk0 : k = 0
              · subst hk0; exact hnot hw
              · rw [← hass]; exact hC (by omega) hw
            · rcases hs1 with hs1 | ⟨x, hx, hu⟩
              · rcases hfu with ⟨hu, hfu⟩ | ⟨-, hfu⟩
                · exact Or.inr ⟨r, by simp, hu⟩
                · exact Or.inl (by omega)
              · exact Or.inr ⟨x, by simp [hx], hu⟩
            · intro x hx hu
              rw [List.take_succ_cons] at hx
              rcases List.mem_cons.mp hx with rfl | hx
              · rcases hfu with ⟨-, hfu⟩ | ⟨hn, -⟩
                · omega
                · exact absurd hu hn
              · exact hs2 x hx hu
            · simpa using hs3
            · have hge : ∀ (l : List Read) (t : ℕ), t ≤ Spec.finish t l := by
                intro l
                induction l with
                | nil => intro t; exact Nat.le_refl _
                | cons a l ih =>
                  intro t
                  have := ih (max t a.at + a.took)
                  show t ≤ Spec.finish (max t a.at + a.took) l
                  omega
              have hg := hge (rs.take k) (max now r.at + r.took)
              by_cases hk0 : k = 0
              · have := hm0 hk0
                omega
              · have := hm hk0
                omega

/-! ## A cycle -/

theorem round_spec (o : Opts) (want : Bool) (g : List Cmd) (hg : g ≠ []) (w : World) :
    ∃ fs, (round o want g w).1 = g.map (.sent w.now) ++ fs.map .got ∧ Spec.Round o want w g fs (round o want g w).2 := by
  have hcnt : ∀ d, (g.foldl expect (w.counts.map fun _ => 0)).getD d 0 =
      (g.filter fun c => c.reply && c.dest = d).length := by
    intro d; rw [getD_expect, getD_zeros, Nat.zero_add]
  have hwait : max (if g.length ≠ 0 then o.minOk else 0)
      (if (g.foldl expect (w.counts.map fun _ => 0)).any (· ≠ 0) then o.minRcv else 0) = Spec.patience o g := by
    rw [if_pos (by simpa using hg)]
    have : (g.foldl expect (w.counts.map fun _ => 0)).any (· ≠ 0) = true ↔ ∃ c ∈ g, c.reply := by
      have hz := all_zero (g.foldl expect (w.counts.map fun _ => 0))
      have hn : (g.foldl expect (w.counts.map fun _ => 0)).any (· ≠ 0) = !(g.foldl expect (w.counts.map fun _ => 0)).all (· = 0) := by
        rw [List.not_all_eq_any_not]
        congr 1
        funext x
        simp
      rw [hn, Bool.not_eq_true', ← Bool.not_eq_true, hz]
      constructor
      · intro h
        by_contra hno
        apply h
        intro d
        rw [hcnt, List.length_eq_zero_iff, List.filter_eq_nil_iff]
        intro c hc
        have : ¬ c.reply = true := fun hr => hno ⟨c, hc, hr⟩
        simp [this]
      · rintro ⟨c, hc, hr⟩ h
        have := h c.dest
        rw [hcnt, List.length_eq_zero_iff, List.filter_eq_nil_iff] at this
        exact this c hc (by simp [hr])
    unfold Spec.patience
    by_cases h : ∃ c ∈ g, c.reply
    · rw [if_pos (this.mpr h), if_pos h]
    · rw [if_neg (fun hh => h (this.mp hh)), if_neg h]
      omega
  obtain ⟨k, hk, h1, h2, hh, h3, h4⟩ := check_spec o want true g w.reads [] (g.foldl expect (w.counts.map fun _ => 0)) w.now
    (w.now + Spec.patience o g) (by intro d; rw [hcnt]; simp [Spec.received])
  unfold round
  dsimp only
  rw [hwait]
  refine ⟨_, rfl, k, hk, h1, h2, fun a r hr => by have := hh a r hr; omega, fun j a b => ?_, ?_⟩
  · simpa using h3 j a b rfl
  · rcases h4 with ⟨-, a, b, c⟩ | ⟨a, -, c, d, e⟩
    · left; exact ⟨a, by simpa using b, c⟩
    · right
      refine ⟨fun hk0 => by simpa using a hk0 rfl, c, fun hk0 => ?_, ?_⟩
      · exact (d hk0).trans (by omega)
      · by_cases hk0 : k = 0
        · exact le_trans (le_of_eq (d hk0)) (by omega)
        · exact e hk0

theorem loop_spec (o : Opts) (want : Bool) (cmds : List Cmd) (advance : ℕ) (ha : 0 < advance) :
    ∀ (fuel start : ℕ) (w : World), 0 < fuel → cmds.length < start + fuel →
    ∃ log w' gs, loop o want cmds advance fuel start w = some (log, w') ∧ gs.flatten = cmds.drop start ∧
      (∀ g ∈ gs, g ≠ [] ∧ g.length ≤ advance) ∧ (cmds.length ≤ start + advance → gs.length ≤ 1) ∧
      Spec.Rounds (Spec.Round o want) w gs log w' := by
  intro fuel
  induction fuel with
  | zero =>
    intro start w h
    exact absurd h (Nat.lt_irrefl 0)
  | succ n ih =>
    intro start w _ h
    rw [loop]
    by_cases hs : start < cmds.length
    · rw [if_pos hs]
      have hg : (cmds.drop start).take advance ≠ [] := by
        intro h0
        have := congrArg List.length h0
        rw [List.length_take, List.length_drop, List.length_nil] at this
        omega
      obtain ⟨fs, e1, e2⟩ := round_spec o want _ hg w
      obtain ⟨log, w', gs, i1, i2, i3, i4, i5⟩ := ih (start + advance) (round o want ((cmds.drop start).take advance) w).2 (by omega) (by omega)
      dsimp only
      rw [i1, e1]
      refine ⟨_, _, (cmds.drop start).take advance :: gs, rfl, ?_, ?_, ?_, .cons e2 i5⟩
      · rw [List.flatten_cons, i2, ← List.drop_drop, List.take_append_drop]
      · intro g hgm
        rcases List.mem_cons.mp hgm with rfl | hgm
        · exact ⟨hg, List.length_take_le _ _⟩
        · exact i3 g hgm
      · intro hle
        have : gs = [] := by
          have h0 : gs.flatten = [] := by rw [i2, List.drop_eq_nil_of_le hle]
          cases gs with
          | nil => rfl
          | cons a b => exact absurd (List.append_eq_nil_iff.mp h0).1 (i3 a (List.mem_cons_self ..)).1
        rw [this]
        simp
    · rw [if_neg hs]
      exact ⟨[], w, [], rfl, by rw [List.drop_eq_nil_of_le (by omega)]; rfl, by simp, by simp, .nil w⟩

/-- **C102** A cycle first empties the input, then sends all frames once and in order, in groups of
at most `max_pipeline`, all of them in one group without this limit.  After each group it reads
until all of it is answered, or until silence. -/
theorem C102_cycle_partial (o : Opts) (want : Bool) (cmds : List Cmd) (w : World) (hp : o.maxPipeline ≠ 0) :
    ∃ flushed log w1 w' gs, cycle o want cmds (cmds.length + 1) w = some (flushed.map .got ++ log, w') ∧
      gs.flatten = cmds ∧ (∀ g ∈ gs, g ≠ []) ∧ (∀ g ∈ gs, 0 ≤ o.maxPipeline → (g.length : ℤ) ≤ o.maxPipeline) ∧
      (o.maxPipeline < 0 → gs.length ≤ 1) ∧
      (∃ k ≤ w.reads.length, flushed = Spec.received (w.reads.take k) ∧ w1.reads = w.reads.drop k ∧
        Spec.Silence o want (w.now + 5000) (w.reads.take k) (w.reads.drop k) w1.now) ∧
      Spec.Rounds (Spec.Round o want) w1 gs log w' := by
  obtain ⟨k, hk, h1, h2, -, -, h4⟩ := check_spec o want false [] w.reads [] [] w.now (w.now + 5000) (by intro d; simp)
  have hflush : ∃ k ≤ w.reads.length, (flush o want w).1 = (Spec.received (w.reads.take k)).map .got ∧
      (flush o want w).2.reads = w.reads.drop k ∧
      Spec.Silence o want (w.now + 5000) (w.reads.take k) (w.reads.drop k) (flush o want w).2.now := by
    refine ⟨k, hk, ?_, h2, ?_⟩
    · unfold flush; rw [← h1]; rfl
    · rcases h4 with h4 | h4
      · exact absurd h4.1 (by simp)
      · exact h4.2.2.1
  obtain ⟨k, hk, f1, f2, f3⟩ := hflush
  unfold cycle
  dsimp only
  rw [f1]
  by_cases hneg : o.maxPipeline < 0
  · rw [if_pos hneg]
    by_cases h0 : cmds = []
    · subst h0
      refine ⟨_, [], (flush o want w).2, (flush o want w).2, [], ?_, rfl, by simp, by simp, by simp, ⟨k, hk, rfl, f2, f3⟩, .nil _⟩
      simp [loop]
    · have hl : 0 < cmds.length := List.length_pos_iff.mpr h0
      obtain ⟨log, w', gs, i1, i2, i3, i4, i5⟩ := loop_spec o want cmds cmds.length hl (cmds.length + 1) 0 (flush o want w).2 (by omega) (by omega)
      rw [i1]
      exact ⟨_, log, _, w', gs, rfl, i2, fun g hg => (i3 g hg).1, fun g _ h => absurd h (by omega),
        fun _ => i4 (by omega), ⟨k, hk, rfl, f2, f3⟩, i5⟩
  · rw [if_neg hneg]
    obtain ⟨log, w', gs, i1, i2, i3, i4, i5⟩ := loop_spec o want cmds o.maxPipeline.toNat (by omega) (cmds.length + 1) 0
      (flush o want w).2 (by omega) (by omega)
    rw [i1]
    exact ⟨_, log, _, w', gs, rfl, i2, fun g hg => (i3 g hg).1, fun g hg _ => by have := (i3 g hg).2; omega,
      fun h => absurd h hneg, ⟨k, hk, rfl, f2, f3⟩, i5⟩

/-- Specification: the frames that were sent. -/
def Spec.sent (log : List Ev) : List Cmd := log.filterMap fun | .sent _ c => some c | .got _ => none

theorem rounds_sent {R : World → List Cmd → List Frame → World → Prop} {w w' : World} {gs : List (List Cmd)}
    {log : List Ev} (h : Spec.Rounds R w gs log w') : Spec.sent log = gs.flatten := by
  induction h with
  | nil => rfl
  | @cons w w1 w2 g gs fs log _ _ ih =>
    unfold Spec.sent at ih ⊢
    rw [List.filterMap_append, List.filterMap_append, ih, List.flatten_cons]
    congr 1
    have e1 : (g.map (Ev.sent w.now)).filterMap (fun | .sent _ c => some c | .got _ => none) = g := by
      rw [List.filterMap_map]
      show g.filterMap some = g
      exact List.filterMap_some
    have e2 : (fs.map Ev.got).filterMap (fun | .sent _ c => some c | .got _ => none) = [] := by
      rw [List.filterMap_map]
      show fs.filterMap (fun _ => none) = []
      simp
    rw [e1, e2, List.append_nil]

/-- **C102** All frames are sent, once and in order. -/
theorem C102_sent_partial (o : Opts) (want : Bool) (cmds : List Cmd) (w : World) (hp : o.maxPipeline ≠ 0) :
    ∃ log w', cycle o want cmds (cmds.length + 1) w = some (log, w') ∧ Spec.sent log = cmds := by
  obtain ⟨fl, log, w1, w', gs, h1, h2, -, -, -, -, h3⟩ := C102_cycle_partial o want cmds w hp
  refine ⟨_, w', h1, ?_⟩
  have := rounds_sent h3
  unfold Spec.sent at this ⊢
  rw [List.filterMap_append, this, h2, List.filterMap_map]
  show fl.filterMap (fun _ => none) ++ cmds = cmds
  simp

/-- **C102** If the answers come in time, the first within the patience and each within `rxExtra` of
the one before, then none of them is missed. -/
theorem C102_answered {o : Opts} {want : Bool} {w w' : World} {g : List Cmd} {fs : List Frame}
    (h : Spec.Round o want w g fs w') (n : ℕ) (hn : n ≤ w.reads.length) (h0 : 0 < n)
    (hall : Spec.Complete g (w.reads.take n))
    (hfirst : ∀ r ∈ w.reads.head?, r.at ≤ w.now + Spec.patience o g)
    (hu : ∀ r ∈ w.reads.take n, Spec.Useful want r)
    (hgap : ∀ i (a b : Read), i + 1 < n → w.reads[i]? = some a → w.reads[i + 1]? = some b →
      b.at ≤ a.at + a.took + o.rxExtra) :
    ∃ k ≤ n, fs = Spec.received (w.reads.take k) ∧ Spec.Complete g (w.reads.take k) ∧
      w'.now = Spec.finish w.now (w.reads.take k) ∧ ∀ c ∈ g, c.reply → ∃ f ∈ fs, f.source = c.dest := by
  obtain ⟨k, hk, e1, e2, -, h1, h2⟩ := h
  have hkn : k ≤ n := by
    by_contra hlt
    exact h1 n h0 (by omega) hall
  have hC : Spec.Complete g (w.reads.take k) ∧ w'.now = Spec.finish w.now (w.reads.take k) := by
    rcases h2 with h2 | ⟨hno, ⟨hs1, hs2, hs3⟩, -⟩
    · exact h2.2
    · exfalso
      have hlt : k < n := by
        rcases Nat.lt_or_ge k n with h | h
        · exact h
        · have : k = n := by omega
          subst this
          exact absurd hall (hno h0)
      have hkl : k < w.reads.length := by omega
      have hnext := hs3 w.reads[k] (by rw [List.head?_drop, List.getElem?_eq_getElem hkl]; rfl)
      by_cases hk0 : k = 0
      · subst hk0
        have := hfirst w.reads[0] (by rw [List.head?_eq_getElem?, List.getElem?_eq_getElem hkl]; rfl)
        rcases hs1 with hs1 | ⟨x, hx, -⟩
        · omega
        · simp at hx
      · obtain ⟨j, rfl⟩ : ∃ j, k = j + 1 := ⟨k - 1, by omega⟩
        have hj : j < w.reads.length := by omega
        have hm : w.reads[j] ∈ w.reads.take (j + 1) := by
          rw [List.mem_take_iff_getElem]
          exact ⟨j, by omega, rfl⟩
        have hm' : w.reads[j] ∈ w.reads.take n := by
          rw [List.mem_take_iff_getElem]
          exact ⟨j, by omega, rfl⟩
        have a := hs2 _ hm (hu _ hm')
        have b := hgap j _ _ hlt (List.getElem?_eq_getElem hj) (List.getElem?_eq_getElem hkl)
        omega
  refine ⟨k, hkn, e1, hC.1, hC.2, ?_⟩
  intro c hc hr
  have := hC.1.1 c.dest
  have hpos : 0 < (g.filter fun x => x.reply && x.dest = c.dest).length := by
    apply List.length_pos_of_mem (a := c)
    rw [List.mem_filter]
    exact ⟨hc, by simp [hr]⟩
  obtain ⟨f, hf⟩ := List.exists_mem_of_length_pos (lt_of_lt_of_le hpos this)
  rw [List.mem_filter] at hf
  exact ⟨f, by rw [e1]; exact hf.1, by simpa using hf.2⟩

/-- **C102** If nothing comes within the patience, a round ends then, without replies. -/
theorem C102_silent {o : Opts} {want : Bool} {w w' : World} {g : List Cmd} {fs : List Frame}
    (h : Spec.Round o want w g fs w') (hs : ∀ r ∈ w.reads.head?, w.now + Spec.patience o g < r.at) :
    fs = [] ∧ w'.reads = w.reads ∧ w'.now = w.now + Spec.patience o g := by
  obtain ⟨k, hk, e1, e2, h0, -, h2⟩ := h
  have hk0 : k = 0 := by
    by_contra hne
    have hl : 0 < w.reads.length := by omega
    have hm : w.reads[0] ∈ w.reads.head? := by rw [List.head?_eq_getElem?, List.getElem?_eq_getElem hl]; rfl
    have := h0 (by omega) _ hm
    have := hs _ hm
    omega
  subst hk0
  rcases h2 with h2 | h2
  · exact absurd h2.1 (Nat.lt_irrefl 0)
  · exact ⟨e1, e2, h2.2.2.1 rfl⟩

/-- **C102** The result of a command is the last reply of the controller it was sent to. -/
theorem C102_result (id source pre : ℕ) (rs : List Frame) (f : Frame) :
    (findResult id source pre rs = some f ↔
      (f.source = id ∧ f.destination = source ∧ f.prefix = pre) ∧
      ∃ a b, rs = a ++ f :: b ∧ ∀ x ∈ b, ¬ (x.source = id ∧ x.destination = source ∧ x.prefix = pre)) ∧
    (findResult id source pre rs = none ↔
      ∀ x ∈ rs, ¬ (x.source = id ∧ x.destination = source ∧ x.prefix = pre)) := by
  unfold findResult
  constructor
  · rw [List.find?_eq_some_iff_append]
    simp only [Bool.and_eq_true, decide_eq_true_eq, and_assoc]
    constructor
    · rintro ⟨h1, h2, h3, as, bs, e, h4⟩
      refine ⟨h1, h2, h3, bs.reverse, as.reverse, ?_, ?_⟩
      · have := congrArg List.reverse e
        simpa using this
      · intro x hx
        have := h4 x (by simpa using hx)
        simp at this
        tauto
    · rintro ⟨h1, h2, h3, a, b, e, h4⟩
      refine ⟨h1, h2, h3, b.reverse, a.reverse, by rw [e]; simp, ?_⟩
      intro x hx
      have := h4 x (by simpa using hx)
      simp
      tauto
  · rw [List.find?_eq_none]
    simp only [List.mem_reverse, Bool.and_eq_true, decide_eq_true_eq, and_assoc]

/-! ## Where it fails -/

/-- A reply of a controller to the host. -/
def replyOf (id : ℕ) (data : List ℕ) : Frame := { id := id * 256, data := data }

/-- A query of a controller. -/
def queryOf (id : ℕ) : Cmd := { dest := id, reply := true, frame := { id := 0x8000 + id, data := [0x11, 0] } }

/-- **C102 refuted** A reply that came too late for the command before is the result of this one, even
if the controller does not answer at all. -/
theorem C102_stale_refuted : ∃ log w', cycle {} true [queryOf 1] 2 ⟨0, [⟨0, [replyOf 1 [0x21, 0, 7]], 0, 0⟩], []⟩ = some (log, w') ∧
    log = [.got (replyOf 1 [0x21, 0, 7]), .sent 5000000 (queryOf 1)] ∧
    findResult 1 0 0 (replies log) = some (replyOf 1 [0x21, 0, 7]) := by
  refine ⟨_, _, rfl, ?_, ?_⟩ <;> decide +kernel

/-- Traffic of others: a frame every 4 ms. -/
def busy (n : ℕ) : List Read := (List.range n).map fun i => ⟨i * 4000000, [replyOf 2 [0]], 0, 0⟩

theorem busy_get (n i : ℕ) (r : Read) (h : (busy n)[i]? = some r) : r.at = i * 4000000 ∧ r.frames = [replyOf 2 [0]] ∧ i < n := by
  unfold busy at h
  rw [List.getElem?_map] at h
  by_cases hi : i < n
  · rw [List.getElem?_range hi] at h
    simp at h
    subst h
    exact ⟨rfl, rfl, hi⟩
  · rw [List.getElem?_eq_none (by simpa using hi)] at h
    simp at h

/-- **C102 refuted** As long as there are frames of others at least every 5 ms, nothing is sent: there is
no bound for the time of a cycle. -/
theorem C102_busy_refuted (n : ℕ) : ∃ log w' t, cycle {} true [queryOf 1] 2 ⟨0, busy n, []⟩ = some (log, w') ∧
    (∀ u c, Ev.sent u c ∈ log → u = t) ∧ n * 4000000 ≤ t := by
  obtain ⟨fl, log, w1, w', gs, h1, h2, h3, -, h5, ⟨k, hk, e1, e2, hs1, hs2, hs3⟩, h6⟩ :=
    C102_cycle_partial {} true [queryOf 1] ⟨0, busy n, []⟩ (by decide)
  have hlen : (busy n).length = n := by simp [busy]
  have hk' : k ≤ (busy n).length := hk
  have hkn : k = n := by
    by_contra hne
    have hlt : k < (busy n).length := by omega
    have hr := busy_get n k _ (List.getElem?_eq_getElem hlt)
    have hnext := hs3 (busy n)[k] (by show _ ∈ ((busy n).drop k).head?; rw [List.head?_drop, List.getElem?_eq_getElem hlt]; rfl)
    by_cases hk0 : k = 0
    · subst hk0
      rw [hr.1] at hnext
      omega
    · have hj : k - 1 < (busy n).length := by omega
      have hm : (busy n)[k - 1] ∈ (busy n).take k := by
        rw [List.mem_take_iff_getElem]
        exact ⟨k - 1, by omega, rfl⟩
      have hp := busy_get n (k - 1) _ (List.getElem?_eq_getElem hj)
      have := hs2 _ hm (Or.inl ⟨rfl, by rw [hp.2.1]; simp⟩)
      rw [hp.1] at this
      rw [hr.1] at hnext
      simp only at this
      omega
  have hgs : gs = [[queryOf 1]] := by
    have hl := h5 (by decide)
    match gs, hl, h2 with
    | [], _, h2 => simp at h2
    | [g], _, h2 => simpa using h2
  subst hgs
  refine ⟨_, w', w1.now, h1, ?_, ?_⟩
  · intro u c hm
    cases h6 with
    | cons hR hrest =>
      cases hrest
      simp at hm
      exact hm.1
  · by_cases hn : n = 0
    · subst hn; simp
    · have hj : n - 1 < (busy n).length := by omega
      have hp := busy_get n (n - 1) _ (List.getElem?_eq_getElem hj)
      have hm : (busy n)[n - 1] ∈ (busy n).take k := by
        rw [List.mem_take_iff_getElem]
        exact ⟨n - 1, by omega, rfl⟩
      have := hs2 _ hm (Or.inl ⟨rfl, by rw [hp.2.1]; simp⟩)
      rw [hp.1] at this
      have hx : n * 4000000 ≤ (n - 1) * 4000000 + 5000000 := by clear * - hn; omega
      exact hx.trans (le_trans (Nat.add_le_add_right (Nat.le_add_right _ _) _) this)

theorem check_hangup (o : Opts) (want wait : Bool) (expOk : ℕ) (hx : wait = true → 0 < expOk) :
    ∀ (n now fin : ℕ) (counts : List ℕ),
      now + n ≤ (check o want wait expOk counts now fin 0 (List.replicate n ⟨0, [], 0, 1⟩)).now := by
  intro n
  induction n with
  | zero => intro now fin counts; exact Nat.le_max_left _ _
  | succ n ih =>
    intro now fin counts
    rw [List.replicate_succ, check, if_neg (Nat.not_lt_zero _)]
    dsimp only
    rw [if_neg (by
      intro h
      simp only [Bool.and_eq_true, decide_eq_true_eq] at h
      have := hx h.1.1
      omega)]
    have := ih (max now 0 + 1) fin counts
    simp only [List.foldl_nil, List.isEmpty_nil, Bool.not_true, Bool.and_false, ne_eq, not_true_eq_false, decide_false,
      Bool.or_false, Bool.false_eq_true, if_false, Nat.add_zero]
    omega

/-- **C102 refuted** Once the device is gone, so that every `read` gives 0 bytes, a cycle does not
end, whatever its time limits are. -/
theorem C102_gone_refuted (o : Opts) (want : Bool) (n now : ℕ) :
    now + n ≤ (flush o want ⟨now, List.replicate n ⟨0, [], 0, 1⟩, []⟩).2.now ∧
    ∀ g, g ≠ [] → now + n ≤ (round o want g ⟨now, List.replicate n ⟨0, [], 0, 1⟩, []⟩).2.now :=
  ⟨check_hangup o want false 0 (by simp) n now _ _,
   fun g hg => check_hangup o want true g.length (fun _ => List.length_pos_iff.mpr hg) n now _ _⟩

/-- **C102 refuted** With `max_pipeline` 0 a cycle does not end. -/
theorem C102_pipeline_refuted (want : Bool) (cmds : List Cmd) (h : cmds ≠ []) (fuel : ℕ) (w : World) :
    cycle { maxPipeline := 0 } want cmds fuel w = none := by
  have hl : 0 < cmds.length := List.length_pos_iff.mpr h
  have key : ∀ (n : ℕ) (w : World), loop { maxPipeline := 0 } want cmds 0 n 0 w = none := by
    intro n
    induction n with
    | zero => intro w; rfl
    | succ n ih =>
      intro w
      rw [loop, if_pos hl]
      dsimp only
      rw [ih]
      rfl
  unfold cycle
  dsimp only
  rw [if_neg (by decide), show (0 : ℤ).toNat = 0 from rfl, key]
  rfl

/-- **C102 refuted** On a socket every frame that is received counts as OK, so a command without reply
makes the cycle wait although all replies are there. -/
theorem C102_socket_refuted : ∃ log w', cycle {} true [queryOf 1, { queryOf 2 with reply := false }] 3
    ⟨0, [⟨100000, [replyOf 1 [0]], 1, 0⟩], []⟩ = some (log, w') ∧ w'.now = 5100000 := by
  refine ⟨_, _, rfl, ?_⟩
  decide +kernel

/-- Two queries, an OK and then both replies in one read. -/
example : ∃ log w', cycle {} true [queryOf 1, queryOf 2] 3
    ⟨0, [⟨100000, [], 2, 10⟩, ⟨300000, [replyOf 2 [0], replyOf 1 [1]], 0, 10⟩, ⟨400000, [replyOf 7 []], 0, 0⟩], []⟩ = some (log, w') ∧
    log = [.sent 5000 (queryOf 1), .sent 5000 (queryOf 2), .got (replyOf 2 [0]), .got (replyOf 1 [1])] ∧ w'.now = 300010 ∧
    findResult 1 0 0 (replies log) = some (replyOf 1 [1]) := by
  refine ⟨_, _, rfl, ?_, ?_, ?_⟩ <;> decide +kernel

/-- The hypotheses of `C102_answered` and `C102_silent` can be met. -/
example : ∃ fs w', Spec.Round {} true ⟨0, [⟨100000, [], 1, 10⟩, ⟨300000, [replyOf 1 [1]], 0, 10⟩], []⟩ [queryOf 1] fs w' ∧
    Spec.Complete [queryOf 1] [⟨100000, [], 1, 10⟩, ⟨300000, [replyOf 1 [1]], 0, 10⟩] := by
  obtain ⟨fs, -, h⟩ := round_spec {} true [queryOf 1] (by simp) ⟨0, [⟨100000, [], 1, 10⟩, ⟨300000, [replyOf 1 [1]], 0, 10⟩], []⟩
  refine ⟨fs, _, h, fun d => ?_, by decide⟩
  by_cases hd : d = 1
  · subst hd; decide
  · have : ¬ 1 = d := fun h => hd h.symm
    simp [queryOf, this]

end Verif.Cxx.Cycle
