import Mathlib.Data.Nat.Find
import Mathlib.Tactic.NormNum
import Mathlib.Tactic.Linarith
import Mathlib.Tactic.Positivity
import Mathlib.Tactic.Ring
import Verif.Can.Model

/-!
# The CAN controller of the firmware (C110)

fw/fdcan.cc and fw/fdcan_micro_server.h: the bit timing, the prefix and the receive filter, the queue of frames
to send, the format of replies.

`pclk1` is the clock of the CAN controller.  Not modelled: the pins, delay compensation, remote frames, the
overrides of the bit timing, which the firmware does not use.
-/

namespace Verif.Fw.CanServer

open Verif.Can

/-! ## bit timing -/

/-- `FDCan::Rate` (fw/fdcan.h:54-59). -/
structure Rate where
  prescaler : ℤ
  sjw : ℤ
  seg1 : ℤ
  seg2 : ℤ
  deriving DecidableEq

/-- a `uint32_t` that is assigned to an `int`. -/
def toInt (x : ℕ) : ℤ := if x < 2 ^ 31 then x else (x : ℤ) - 2 ^ 32

/-- one pass of the loop of `MakeTime` (fw/fdcan.cc:53-62) with this prescaler; the numbers are `uint32_t`. -/
def attempt (pclk1 bitrate k : ℕ) : Rate :=
  let total := (pclk1 / k) / bitrate
  let actual := (total + 2 ^ 32 - 1) % 2 ^ 32
  let seg2 := toInt (actual / 3)
  let seg1 := toInt (((actual : ℤ) - seg2) % 2 ^ 32).toNat
  ⟨k, min 16 seg2, seg1, seg2⟩

/-- `MakeTime` (fw/fdcan.cc:44-74) from prescaler `k` on, for so many passes. -/
def makeTime (pclk1 bitrate : ℕ) (max1 max2 : ℤ) : ℕ → ℕ → Option Rate
  | 0, _ => none
  | fuel + 1, k =>
    let r := attempt pclk1 bitrate k
    if r.seg1 > max1 ∨ r.seg2 > max2 then makeTime pclk1 bitrate max1 max2 fuel (k + 1) else some r

/-! ## prefix and filter -/

/-- `old_can_config`, the filter of `FDCan` (none: `FDCan::Options` accepts everything), and `can_prefix_`. -/
structure Node where
  old : ℕ := 0
  filter : Option ℕ := none
  pre : ℕ := 0

/-- what happens when the configuration is loaded or set (fw/moteus.cc:279-302). -/
def configUpdate (n : Node) (p : ℕ) : Node := if p = n.old then n else ⟨p, some p, p⟩

/-- whether a frame is received (fw/fdcan.cc:160-270; `fwAccepts` is the filter of fw/moteus.cc). -/
def accepts (n : Node) (f : BusFrame) : Bool :=
  match n.filter with
  | none => true
  | some p => fwAccepts p f

/-! ## sending -/

/-- the frames that wait, the one on the bus, and those that were sent.  The controller has room for three. -/
structure Queue (α : Type) where
  waiting : List α := []
  sending : Option α := none
  sent : List α := []

variable {α : Type}

/-- `FDCan::Send` (fw/fdcan.cc:310-350): the last request is aborted, which has no effect on a frame that is on
the bus or gone; `none` is `mbed_die` because there is no room. -/
def send (q : Queue α) (f : α) : Option (Queue α) :=
  let waiting := q.waiting.dropLast
  if waiting.length + (if q.sending.isSome then 1 else 0) < 3 then some { q with waiting := waiting ++ [f] } else none

/-- what the bus does: the next frame is begun, or the one on the bus is done. -/
def begin (q : Queue α) : Queue α :=
  match q.sending, q.waiting with
  | none, f :: l => { q with waiting := l, sending := some f }
  | _, _ => q

def done (q : Queue α) : Queue α :=
  match q.sending with
  | some f => { q with sending := none, sent := q.sent ++ [f] }
  | none => q

inductive Ev (α : Type) where
  | send (f : α)
  | begin
  | done

/-- the queue after these events. -/
def runQueue : Queue α → List (Ev α) → Option (Queue α)
  | q, [] => some q
  | q, .send f :: l => (send q f).bind fun q => runQueue q l
  | q, .begin :: l => runQueue (begin q) l
  | q, .done :: l => runQueue (done q) l

/-! ## the format of a reply -/

/-- `ApplyOverride` (fw/fdcan.cc:298-308). -/
inductive Override where
  | default | require | disable

def applyOverride (v : Bool) : Override → Bool
  | .default => v
  | .require => true
  | .disable => false

/-- the flags of the reply to a query with these flags (fw/fdcan_micro_server.h:53-60, fw/fdcan.cc:331-341, with
the options of fw/moteus.cc): (bit rate switch, CAN-FD). -/
def replyFormat (queryBrs queryFd : Bool) (size : ℕ) : Bool × Bool :=
  (applyOverride true (if queryBrs then .require else .disable),
    applyOverride true (if queryFd = false ∧ size ≤ 8 then .disable else .require))

/-! ## the specification -/

namespace Spec

/-- whether a bit of `n` quanta fits: a third of what is left after the first is the second segment. -/
def Fits (max1 max2 n : ℕ) : Prop := (n - 1) / 3 ≤ max2 ∧ n - 1 - (n - 1) / 3 ≤ max1

/-- the frames that are sent by these events, in order. -/
def sends (l : List (Ev α)) : List α :=
  l.filterMap fun e => match e with
    | .send f => some f
    | _ => none

/-- all frames of a queue. -/
def all (q : Queue α) : List α := q.sent ++ q.sending.toList ++ q.waiting

end Spec

open Spec

/-! ## proofs: bit timing -/

private theorem attempt_eq {pclk1 bitrate k : ℕ} (hp : pclk1 < 2 ^ 32) (h : 1 ≤ pclk1 / k / bitrate) :
    attempt pclk1 bitrate k =
      ⟨k, min 16 ((pclk1 / k / bitrate - 1) / 3 : ℕ),
        ((pclk1 / k / bitrate - 1 - (pclk1 / k / bitrate - 1) / 3 : ℕ) : ℤ) - (if
          2 ^ 31 ≤ pclk1 / k / bitrate - 1 - (pclk1 / k / bitrate - 1) / 3 then 2 ^ 32 else 0),
        ((pclk1 / k / bitrate - 1) / 3 : ℕ)⟩ := by
  have ht : pclk1 / k / bitrate < 2 ^ 32 :=
    lt_of_le_of_lt (le_trans (Nat.div_le_self _ _) (Nat.div_le_self _ _)) hp
  unfold attempt
  generalize pclk1 / k / bitrate = t at *
  have e1 : (t + 2 ^ 32 - 1) % 2 ^ 32 = t - 1 := by omega
  have e2 : toInt ((t - 1) / 3) = (((t - 1) / 3 : ℕ) : ℤ) := by
    unfold toInt
    rw [if_pos (by omega)]
  have e3 : ((((t - 1 : ℕ) : ℤ) - ((t - 1) / 3 : ℕ)) % 2 ^ 32).toNat = t - 1 - (t - 1) / 3 := by omega
  have e4 : toInt (t - 1 - (t - 1) / 3) = ((t - 1 - (t - 1) / 3 : ℕ) : ℤ) - (if
      2 ^ 31 ≤ t - 1 - (t - 1) / 3 then 2 ^ 32 else 0) := by
    unfold toInt
    split <;> split <;> omega
  simp only [e1, e2, e3, e4]

private theorem makeTime_finds (pclk1 bitrate : ℕ) (max1 max2 : ℤ) (j : ℕ)
    (hj : ¬((attempt pclk1 bitrate j).seg1 > max1 ∨ (attempt pclk1 bitrate j).seg2 > max2)) :
    ∀ n k, k + n = j → (∀ i, k ≤ i → i < j → ((attempt pclk1 bitrate i).seg1 > max1 ∨
      (attempt pclk1 bitrate i).seg2 > max2)) →
      makeTime pclk1 bitrate max1 max2 (n + 1) k = some (attempt pclk1 bitrate j)
  | 0, k, hk, _ => by
    have : k = j := by omega
    subst this
    unfold makeTime
    simp only [if_neg hj]
  | n + 1, k, hk, h => by
    unfold makeTime
    simp only [if_pos (h k (le_refl _) (by omega))]
    exact makeTime_finds pclk1 bitrate max1 max2 j hj n (k + 1) (by omega) fun i h1 h2 => h i (by omega) h2

private theorem rejects_iff {pclk1 bitrate k max1 max2 : ℕ} (hp : pclk1 < 2 ^ 32) (h : 1 ≤ pclk1 / k / bitrate)
    (h2 : max2 < 2 ^ 20) :
    ((attempt pclk1 bitrate k).seg1 > (max1 : ℤ) ∨ (attempt pclk1 bitrate k).seg2 > (max2 : ℤ)) ↔
      ¬ Fits max1 max2 (pclk1 / k / bitrate) := by
  rw [attempt_eq hp h]
  unfold Fits
  simp only
  generalize pclk1 / k / bitrate = t at *
  split <;> omega

/-- **C110, bit timing.** For every clock and every bit rate up to it the loop ends.  The segments are inside of
the limits, the prescaler is the smallest for which they are, and is an `int`.  The bit rate is at least the
one that is asked for, and less than one quantum of a bit above. -/
theorem C110_timing {pclk1 bitrate max1 max2 : ℕ} (hp : pclk1 < 2 ^ 32) (hb : 1 ≤ bitrate) (hbp : bitrate ≤ pclk1)
    (h1 : 1 ≤ max1) (h2 : 1 ≤ max2) (h2' : max2 < 2 ^ 20) :
    ∃ (fuel p s1 s2 : ℕ), makeTime pclk1 bitrate max1 max2 fuel 1 = some ⟨p, min 16 s2, s1, s2⟩ ∧
      1 ≤ p ∧ p < 2 ^ 31 ∧ s1 ≤ max1 ∧ s2 ≤ max2 ∧
      bitrate * (p * (1 + s1 + s2)) ≤ pclk1 ∧ pclk1 < bitrate * (p * (2 + s1 + s2)) ∧
      2 * s2 ≤ s1 ∧ s1 ≤ 2 * s2 + 2 ∧
      ∀ k, 1 ≤ k → k < p → ¬ Fits max1 max2 (pclk1 / (k * bitrate)) := by
  have hdiv : ∀ k, pclk1 / k / bitrate = pclk1 / (k * bitrate) := fun k => Nat.div_div_eq_div_mul _ _ _
  have hex : ∃ k, 1 ≤ k ∧ 1 ≤ pclk1 / k / bitrate ∧ Fits max1 max2 (pclk1 / k / bitrate) := by
    have ht : 1 ≤ pclk1 / bitrate := (Nat.le_div_iff_mul_le hb).2 (by omega)
    have e : pclk1 / (pclk1 / bitrate) / bitrate = 1 := by
      rw [hdiv]
      have m1 := Nat.div_mul_le_self pclk1 bitrate
      have m2 := Nat.lt_div_mul_add hb (a := pclk1)
      generalize pclk1 / bitrate = t at *
      have hpos : 0 < t * bitrate := by positivity
      apply Nat.div_eq_of_lt_le
      · omega
      · nlinarith
    refine ⟨pclk1 / bitrate, ht, by rw [e], ?_⟩
    rw [e]
    constructor <;> simp
  classical
  have hspec := Nat.find_spec hex
  have hmin : ∀ m, m < Nat.find hex → ¬ (1 ≤ m ∧ 1 ≤ pclk1 / m / bitrate ∧ Fits max1 max2 (pclk1 / m / bitrate)) :=
    fun m hm => Nat.find_min hex hm
  generalize Nat.find hex = p at hspec hmin
  obtain ⟨s1, s2, s3⟩ := hspec
  have hge : ∀ k, 1 ≤ k → k < p → 1 ≤ pclk1 / k / bitrate := by
    intro k hk1 hk2
    refine le_trans s2 ?_
    exact Nat.div_le_div_right (Nat.div_le_div_left (by omega) hk1)
  have hrej : ∀ k, 1 ≤ k → k < p → ¬ Fits max1 max2 (pclk1 / k / bitrate) :=
    fun k hk1 hk2 hf => hmin k hk2 ⟨hk1, hge k hk1 hk2, hf⟩
  have hfin := makeTime_finds pclk1 bitrate max1 max2 p (by rw [rejects_iff hp s2 h2']; exact not_not.2 s3) (p - 1) 1
    (by omega) fun i hi1 hi2 => (rejects_iff hp (hge i hi1 hi2) h2').2 (hrej i hi1 hi2)
  rw [attempt_eq hp s2] at hfin
  have hlt : pclk1 / p / bitrate < 2 ^ 32 :=
    lt_of_le_of_lt (le_trans (Nat.div_le_self _ _) (Nat.div_le_self _ _)) hp
  obtain ⟨f1, f2⟩ := s3
  rw [if_neg (by omega), sub_zero] at hfin
  refine ⟨p - 1 + 1, p, _, _, hfin, s1, ?_, f2, f1, ?_, ?_, by omega, by omega, ?_⟩
  · by_cases hp1 : p = 1
    · omega
    · have hr := hrej (p - 1) (by omega) (by omega)
      have h3 : 3 ≤ pclk1 / (p - 1) / bitrate := by
        by_contra hc
        apply hr
        unfold Fits
        omega
      have h4 : 3 ≤ pclk1 / (p - 1) := le_trans h3 (Nat.div_le_self _ _)
      have h5 := (Nat.le_div_iff_mul_le (by omega)).1 h4
      omega
  · have e : 1 + (pclk1 / p / bitrate - 1 - (pclk1 / p / bitrate - 1) / 3) + (pclk1 / p / bitrate - 1) / 3 =
        pclk1 / p / bitrate := by omega
    rw [e, hdiv]
    have := Nat.div_mul_le_self pclk1 (p * bitrate)
    calc bitrate * (p * (pclk1 / (p * bitrate))) = pclk1 / (p * bitrate) * (p * bitrate) := by ring
      _ ≤ pclk1 := this
  · have e : 2 + (pclk1 / p / bitrate - 1 - (pclk1 / p / bitrate - 1) / 3) + (pclk1 / p / bitrate - 1) / 3 =
        pclk1 / p / bitrate + 1 := by omega
    rw [e, hdiv]
    have := Nat.lt_div_mul_add (b := p * bitrate) (by positivity) (a := pclk1)
    calc pclk1 < pclk1 / (p * bitrate) * (p * bitrate) + p * bitrate := this
      _ = bitrate * (p * (pclk1 / (p * bitrate) + 1)) := by ring
  · intro k hk1 hk2
    rw [← hdiv]
    exact hrej k hk1 hk2

/-- the two bit rates of the firmware, with a clock of 85 MHz: exact. -/
example : makeTime 85000000 1000000 255 127 1 1 = some ⟨1, 16, 56, 28⟩ ∧
    makeTime 85000000 5000000 31 15 1 1 = some ⟨1, 5, 11, 5⟩ := by decide +kernel

example : makeTime 85000000 10000 255 127 50 1 = some ⟨23, 16, 246, 122⟩ := by decide +kernel

/-! ## proofs: prefix and filter -/

private theorem update_old (n : Node) (p : ℕ) (h : n.pre = n.old) :
    (configUpdate n p).old = p ∧ (configUpdate n p).pre = p := by
  unfold configUpdate
  split
  · rename_i hp
    exact ⟨hp.symm, by rw [h, hp]⟩
  · exact ⟨rfl, rfl⟩

private theorem updates_inv (us : List ℕ) : ∀ n : Node, n.pre = n.old →
    (us.foldl configUpdate n).pre = us.getLastD n.old ∧ (us.foldl configUpdate n).old = us.getLastD n.old := by
  induction us with
  | nil => intro n h; exact ⟨h, rfl⟩
  | cons u us ih =>
    intro n h
    obtain ⟨a1, a2⟩ := update_old n u h
    have := ih (configUpdate n u) (by rw [a1, a2])
    rw [a1] at this
    rw [List.foldl_cons, List.getLastD_cons]
    exact this

/-- **C110, the prefix.** After every sequence of configurations, replies carry the last one. -/
theorem C110_prefix (us : List ℕ) : (us.foldl configUpdate {}).pre = us.getLastD 0 := (updates_inv us {} rfl).1

private theorem filter_set (us : List ℕ) : ∀ n : Node, n.pre = n.old → (∀ p, n.filter = some p → p = n.old) →
    (n.filter ≠ none ∨ ∃ u ∈ us, u ≠ n.old) → (us.foldl configUpdate n).filter = some (us.getLastD n.old) := by
  induction us with
  | nil =>
    intro n _ h2 h3
    rcases h3 with h3 | ⟨u, hu, -⟩
    · obtain ⟨p, hp⟩ := Option.ne_none_iff_exists'.1 h3
      show n.filter = some n.old
      rw [hp, h2 p hp]
    · exact absurd hu List.not_mem_nil
  | cons u us ih =>
    intro n h1 h2 h3
    rw [List.foldl_cons, List.getLastD_cons]
    by_cases hu : u = n.old
    · have e : configUpdate n u = n := by unfold configUpdate; rw [if_pos hu]
      rw [e, hu]
      refine ih n h1 h2 ?_
      rcases h3 with h3 | ⟨v, hv, hn⟩
      · exact Or.inl h3
      · rcases List.mem_cons.1 hv with rfl | hv
        · exact absurd hu hn
        · exact Or.inr ⟨v, hv, hn⟩
    · have e : configUpdate n u = ⟨u, some u, u⟩ := by unfold configUpdate; rw [if_neg hu]
      rw [e]
      exact ih ⟨u, some u, u⟩ rfl (fun p hp => (Option.some.inj hp).symm) (Or.inl (by simp))

/-- **C110, the filter (partial).** Once a prefix other than 0 was configured, also if it is 0 again, the frames
that are received are those of the filter for the prefix.  Missing: controllers that had prefix 0 since
they were started, see `C110_filter_refuted`. -/
theorem C110_filter_partial {us : List ℕ} (h : ∃ u ∈ us, u ≠ 0) (f : BusFrame) :
    accepts (us.foldl configUpdate {}) f = fwAccepts (us.getLastD 0) f := by
  unfold accepts
  rw [filter_set us {} rfl (fun p hp => by cases hp) (Or.inr h)]

example : ∃ u ∈ [3, 0], u ≠ 0 := ⟨3, by simp, by norm_num⟩

/-! ## proofs: sending -/

private def Inv (q : Queue α) : Prop := q.waiting.length ≤ 1

private theorem step_inv (l : List (Ev α)) : ∀ q : Queue α, Inv q →
    ∃ q', runQueue q l = some q' ∧ Inv q' ∧ (all q').Sublist (all q ++ sends l) ∧
      (all q').getLast? = (all q ++ sends l).getLast? := by
  induction l with
  | nil =>
    intro q h
    exact ⟨q, rfl, h, by simp [sends], by simp [sends]⟩
  | cons e l ih =>
    intro q h
    cases e with
    | send f =>
      have hw : q.waiting.dropLast = [] := by
        unfold Inv at h
        match hq : q.waiting, h with
        | [], _ => rfl
        | [a], _ => rfl
      have hs : send q f = some { q with waiting := [f] } := by
        unfold send
        simp only [hw, List.length_nil, List.nil_append]
        rw [if_pos (by split <;> omega)]
      obtain ⟨q', r1, r2, r3, r4⟩ := ih { q with waiting := [f] } (by simp [Inv])
      have he : sends (Ev.send f :: l) = f :: sends l := rfl
      refine ⟨q', by rw [runQueue, hs]; exact r1, r2, ?_, ?_⟩
      · refine r3.trans ?_
        rw [he]
        simp only [all, List.append_assoc, List.singleton_append]
        refine List.Sublist.append_left (List.Sublist.append_left ?_ _) _
        exact (List.sublist_append_right q.waiting (f :: sends l))
      · rw [r4, he]
        simp only [all, List.append_assoc, List.singleton_append]
        rw [List.getLast?_append, List.getLast?_append, List.getLast?_append, List.getLast?_append,
          List.getLast?_append]
        rcases hx : (f :: sends l).getLast? with _ | y
        · simp at hx
        · simp
    | begin =>
      have ha : all (begin q) = all q ∧ Inv (begin q) := by
        unfold begin
        split
        · rename_i f l' h1 h2
          refine ⟨by simp [all, h1, h2], ?_⟩
          unfold Inv at h ⊢
          rw [h2] at h
          simp at h ⊢
          simp [h]
        · exact ⟨rfl, h⟩
      obtain ⟨q', r1, r2, r3, r4⟩ := ih (begin q) ha.2
      rw [ha.1] at r3 r4
      exact ⟨q', r1, r2, r3, r4⟩
    | done =>
      have ha : all (done q) = all q ∧ Inv (done q) := by
        unfold done
        split
        · rename_i f h1
          exact ⟨by simp [all, h1], h⟩
        · exact ⟨rfl, h⟩
      obtain ⟨q', r1, r2, r3, r4⟩ := ih (done q) ha.2
      rw [ha.1] at r3 r4
      exact ⟨q', r1, r2, r3, r4⟩

/-- **C110, sending.** Whatever the bus does, there is always room, at most one frame waits, frames leave in
order and at most once, and the newest one is never dropped. -/
theorem C110_sending (l : List (Ev α)) :
    ∃ q : Queue α, runQueue {} l = some q ∧ q.waiting.length ≤ 1 ∧ (all q).Sublist (sends l) ∧
      (all q).getLast? = (sends l).getLast? := by
  obtain ⟨q, h1, h2, h3, h4⟩ := step_inv l ({} : Queue α) (by simp [Inv])
  exact ⟨q, h1, h2, by simpa [all] using h3, by simpa [all] using h4⟩

/-- every frame that is handed over finds that the one before has been begun. -/
def Begun : Queue α → List (Ev α) → Prop
  | _, [] => True
  | q, .send f :: l => q.waiting = [] ∧ Begun { q with waiting := [f] } l
  | q, .begin :: l => Begun (begin q) l
  | q, .done :: l => Begun (done q) l

/-- **C110, no loss.** If each frame was begun before the next is handed over, none is lost. -/
theorem C110_no_loss : ∀ (l : List (Ev α)) (q : Queue α), Begun q l →
    ∃ q', runQueue q l = some q' ∧ all q' = all q ++ sends l
  | [], q, _ => ⟨q, rfl, by simp [sends]⟩
  | .send f :: l, q, h => by
    obtain ⟨h1, h2⟩ := h
    obtain ⟨q', r1, r2⟩ := C110_no_loss l _ h2
    refine ⟨q', ?_, ?_⟩
    · rw [runQueue]
      have : send q f = some { q with waiting := [f] } := by
        unfold send
        simp only [h1, List.dropLast_nil, List.length_nil, List.nil_append]
        rw [if_pos (by split <;> omega)]
      rw [this]
      exact r1
    · rw [r2]
      have he : sends (Ev.send f :: l) = f :: sends l := rfl
      simp [all, h1, he]
  | .begin :: l, q, h => by
    obtain ⟨q', r1, r2⟩ := C110_no_loss l _ h
    refine ⟨q', r1, ?_⟩
    rw [r2]
    have : all (begin q) = all q := by
      unfold begin
      split
      · rename_i f l' h1 h2
        simp [all, h1, h2]
      · rfl
    rw [this]
    rfl
  | .done :: l, q, h => by
    obtain ⟨q', r1, r2⟩ := C110_no_loss l _ h
    refine ⟨q', r1, ?_⟩
    rw [r2]
    have : all (done q) = all q := by
      unfold done
      split
      · rename_i f h1
        simp [all, h1]
      · rfl
    rw [this]
    rfl

example : Begun ({} : Queue ℕ) [.send 1, .begin, .send 2, .done, .begin, .send 3] := by
  refine ⟨rfl, rfl, rfl, trivial⟩

/-- **C110, the format.** A classic query gets a classic reply if it fits, CAN-FD is answered with CAN-FD, the
bit rate is switched if and only if it was in the query, and never in a classic frame. -/
theorem C110_format (brs fd : Bool) (size : ℕ) (h : brs = true → fd = true) :
    (replyFormat brs fd size).1 = brs ∧ ((replyFormat brs fd size).2 = false ↔ fd = false ∧ size ≤ 8) ∧
      ((replyFormat brs fd size).1 = true → (replyFormat brs fd size).2 = true) := by
  unfold replyFormat
  by_cases hs : size ≤ 8 <;> cases brs <;> cases fd <;> simp [applyOverride, hs] at h ⊢

example : (true = true → true = true) ∧ replyFormat true true 12 = (true, true) := by decide

/-! ## violations -/

private theorem no_end (pclk1 bitrate : ℕ) (h : pclk1 < bitrate) :
    ∀ fuel k, makeTime pclk1 bitrate 255 127 fuel k = none
  | 0, _ => rfl
  | fuel + 1, k => by
    have : pclk1 / k / bitrate = 0 := by
      apply Nat.div_eq_of_lt
      exact lt_of_le_of_lt (Nat.div_le_self _ _) h
    unfold makeTime attempt
    simp only [this]
    rw [if_pos (by right; decide)]
    exact no_end pclk1 bitrate h fuel (k + 1)

/-- **C110 is violated: for a bit rate above the clock** the loop does not end. -/
theorem C110_rate_refuted (pclk1 bitrate : ℕ) (h : pclk1 < bitrate) (fuel : ℕ) :
    makeTime pclk1 bitrate 255 127 fuel 1 = none := no_end pclk1 bitrate h fuel 1

/-- **C110 is violated: a bit of fewer than four quanta** gets a second segment of length 0, which the
controller does not have. -/
theorem C110_short_refuted : makeTime 85000000 40000000 31 15 1 1 = some ⟨1, 0, 1, 0⟩ := by decide +kernel

/-- **C110 is violated: with the default prefix** a controller receives the frames of every prefix. -/
theorem C110_filter_refuted (us : List ℕ) (h : ∀ u ∈ us, u = 0) (f : BusFrame) :
    accepts (us.foldl configUpdate {}) f = true ∧ fwAccepts 0 ⟨0x58001, true, []⟩ = false := by
  have : us.foldl configUpdate {} = {} := by
    induction us with
    | nil => rfl
    | cons u us ih =>
      rw [List.foldl_cons]
      have : configUpdate {} u = {} := by
        unfold configUpdate
        rw [if_pos (h u List.mem_cons_self)]
      rw [this]
      exact ih fun v hv => h v (List.mem_cons_of_mem _ hv)
  rw [this]
  exact ⟨rfl, by decide⟩

/-- **C110 is violated: a reply that has to wait** is dropped when the next one is handed over. -/
theorem C110_dropped_refuted :
    (runQueue ({} : Queue ℕ) [.send 1, .send 2, .begin, .done, .begin, .done]).map Queue.sent = some [2] := by
  decide +kernel

end Verif.Fw.CanServer
