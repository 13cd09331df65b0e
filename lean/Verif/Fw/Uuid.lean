import Mathlib.Data.List.Basic

/-!
# The UUID of a controller (C118)

`Uuid` (fw/uuid.cc, fw/uuid.h).  Assumed of `PersistentConfig` of mjlib: whenever it has changed values of the group (a value set, a
configuration loaded from flash, defaults) it calls the function given to `Register` before anything else runs.
A byte of one-time programmable memory is 255 until programmed, and programming can only clear bits.
-/

namespace Verif.Fw.Uuid

/-! ## Model -/

/-- the 16 bytes at `g_otp_uuid` and `data_.uuid`. -/
structure State where
  otp : List ℕ
  data : List ℕ

/-- `Uuid::Update` (fw/uuid.cc:29-44). -/
def update (s : State) : State :=
  if s.otp.any (· != 0xff) then { s with data := s.otp } else s

/-- the constructor (fw/uuid.cc:21-25): the bytes are zero (fw/uuid.h:29). -/
def boot (otp : List ℕ) : State := update ⟨otp, List.replicate 16 0⟩

inductive Event
  /-- the configuration stores this UUID (loaded, or default). -/
  | config (u : List ℕ)
  /-- one byte is set in the configuration. -/
  | set (i v : ℕ)
  /-- a byte of the one-time programmable memory is programmed. -/
  | program (i v : ℕ)

def step (s : State) : Event → State
  | .config u => update { s with data := u }
  | .set i v => update { s with data := s.data.set i v }
  | .program i v => { s with otp := s.otp.set i (s.otp.getD i 0xff &&& v) }

def run (s : State) (es : List Event) : State := es.foldl step s

/-! ## Specification -/

/-- Nothing has been programmed. -/
def Blank (otp : List ℕ) : Prop := ∀ b ∈ otp, b = 255

/-- What the configuration alone would make of the UUID. -/
def configured : List ℕ → List Event → List ℕ
  | u, [] => u
  | _, .config u :: es => configured u es
  | u, .set i v :: es => configured (u.set i v) es
  | u, .program _ _ :: es => configured u es

def IsProgram : Event → Prop
  | .program _ _ => True
  | _ => False

/-! ## Proofs -/

private theorem update_blank (s : State) (h : Blank s.otp) : update s = s := by
  unfold update
  rw [if_neg]
  simpa [Blank] using h

private theorem update_not (s : State) (h : ¬ Blank s.otp) : update s = ⟨s.otp, s.otp⟩ := by
  unfold update
  rw [if_pos]
  simpa [Blank] using h

/-- **C118, fixed**: a controller whose memory was programmed when it started has that UUID, whatever the configuration does. -/
theorem C118_fixed (otp : List ℕ) (h : ¬ Blank otp) (es : List Event) (hp : ∀ e ∈ es, ¬ IsProgram e) :
    (run (boot otp) es).data = otp := by
  have key : ∀ (es : List Event), (∀ e ∈ es, ¬ IsProgram e) → run ⟨otp, otp⟩ es = ⟨otp, otp⟩ := by
    intro es
    induction es with
    | nil => intro _; rfl
    | cons e es ih =>
      intro hp
      have he : step ⟨otp, otp⟩ e = ⟨otp, otp⟩ := by
        cases e with
        | config u => exact update_not _ h
        | set i v => exact update_not _ h
        | program i v => exact absurd trivial (hp _ (List.mem_cons_self ..))
      unfold run at ih ⊢
      rw [List.foldl_cons, he]
      exact ih fun x hx => hp x (List.mem_cons_of_mem _ hx)
  have hb : boot otp = ⟨otp, otp⟩ := update_not _ h
  rw [hb, key es hp]

example : ¬ Blank [1, 255] ∧ (run (boot [1, 255]) [.config [3, 4], .set 0 9]).data = [1, 255] := by
  refine ⟨fun h => ?_, rfl⟩
  have := h 1 (by simp)
  omega

/-- **C118, configured**: without, it has the one of the configuration, and zeros before there is one. -/
theorem C118_configured (otp : List ℕ) (h : Blank otp) (es : List Event) (hp : ∀ e ∈ es, ¬ IsProgram e) :
    (run (boot otp) es).data = configured (List.replicate 16 0) es := by
  have key : ∀ (es : List Event) (u : List ℕ), (∀ e ∈ es, ¬ IsProgram e) → (run ⟨otp, u⟩ es).data = configured u es := by
    intro es
    induction es with
    | nil => intro u _; rfl
    | cons e es ih =>
      intro u hp
      have hp' : ∀ x ∈ es, ¬ IsProgram x := fun x hx => hp x (List.mem_cons_of_mem _ hx)
      cases e with
      | config v =>
        have := ih v hp'
        unfold run at this ⊢
        rw [List.foldl_cons, step, update_blank _ h]
        exact this
      | set i v =>
        have := ih (u.set i v) hp'
        unfold run at this ⊢
        rw [List.foldl_cons, step, update_blank _ h]
        exact this
      | program i v => exact absurd trivial (hp _ (List.mem_cons_self ..))
  have hb : boot otp = ⟨otp, List.replicate 16 0⟩ := update_blank _ h
  rw [hb]
  exact key es _ hp

example : Blank [255, 255] ∧ (run (boot [255, 255]) [.config [3, 4], .set 0 9]).data = [9, 4] := by
  refine ⟨fun b hb => ?_, rfl⟩
  simpa using hb

/-- **C118, at any time**, also while the memory is programmed: after a change of the configuration the UUID is the programmed one, if any. -/
theorem C118_changed (s : State) (es : List Event) (e : Event) (he : ¬ IsProgram e) (h : ¬ Blank (run s es).otp) :
    (run s (es ++ [e])).data = (run s es).otp := by
  unfold run at h ⊢
  rw [List.foldl_append, List.foldl_cons, List.foldl_nil]
  cases e with
  | config u => exact congrArg State.data (update_not ⟨_, u⟩ h)
  | set i v => exact congrArg State.data (update_not ⟨_, (List.foldl step s es).data.set i v⟩ h)
  | program i v => exact absurd trivial he

example : ¬ IsProgram (.set 0 1) ∧ (run (boot [255, 255]) [.program 0 7, .set 0 1]).data = [7, 255] := ⟨fun h => h, rfl⟩

/-- **C118 is violated while the memory is programmed**: the controller goes on with the configured UUID, and after the next change of the
configuration with one of which only a part is programmed, though a UUID was configured. -/
theorem C118_programming_refuted :
    (run (boot (List.replicate 16 255)) [.config (List.range 16), .program 0 7]).data = List.range 16 ∧
    (run (boot (List.replicate 16 255)) [.config (List.range 16), .program 0 7, .set 1 1]).data = 7 :: List.replicate 15 255 :=
  ⟨by decide, by decide⟩

end Verif.Fw.Uuid
