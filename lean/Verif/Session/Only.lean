import Verif.Session.Tool

/-!
# Programs that send only certain things

`Only q p`: in every execution of `p`, every event satisfies `q`.  The lemmas
follow the structure of programs, and `only_tac` applies them.
-/

namespace Verif.Session

variable {F α β σ S : Type}

/-- Every event of every execution satisfies `q`. -/
def Only (q : Ev F → Prop) (p : P F α) : Prop := ∀ t r, p t r → ∀ ev ∈ t, q ev

namespace Only

variable {q : Ev F → Prop}

theorem pure {a : α} : Only q (Pure.pure a : P F α) := by
  rintro t r ⟨rfl, rfl⟩ ev h
  exact absurd h (by simp)

theorem raise {e : Exn} : Only q (M.raise e : P F α) := by
  rintro t r ⟨rfl, rfl⟩ ev h
  exact absurd h (by simp)

theorem bind {p : P F α} {f : α → P F β} (h1 : Only q p) (h2 : ∀ a, Only q (f a)) :
    Only q (p >>= f) := by
  intro t r h
  cases h with
  | ok hp hf =>
    intro ev hev
    rcases List.mem_append.1 hev with h | h
    · exact h1 _ _ hp _ h
    · exact h2 _ _ _ hf _ h
  | raised hp => exact h1 _ _ hp

theorem tryCatch {p : P F α} {f : Exn → P F α} (h1 : Only q p) (h2 : ∀ a, Only q (f a)) :
    Only q (M.Catch p f) := by
  intro t r h
  cases h with
  | ok hp => exact h1 _ _ hp
  | caught hp hf =>
    intro ev hev
    rcases List.mem_append.1 hev with h | h
    · exact h1 _ _ hp _ h
    · exact h2 _ _ _ hf _ h

theorem tryFinally {p : P F α} {f : P F Unit} (h1 : Only q p) (h2 : Only q f) :
    Only q (M.Finally p f) := by
  intro t r h
  cases h with
  | done hp hf =>
    intro ev hev
    rcases List.mem_append.1 hev with h | h
    · exact h1 _ _ hp _ h
    · exact h2 _ _ hf _ h
  | raised hp hf =>
    intro ev hev
    rcases List.mem_append.1 hev with h | h
    · exact h1 _ _ hp _ h
    · exact h2 _ _ hf _ h

theorem loop {body : σ → P F (σ ⊕ α)} (h : ∀ s, Only q (body s)) (s : σ) :
    Only q (M.Loop body s) := by
  intro t r hr
  induction hr with
  | again hb _ ih =>
    intro ev hev
    rcases List.mem_append.1 hev with h' | h'
    · exact h _ _ _ hb _ h'
    · exact ih _ h'
  | leave hb => exact h _ _ _ hb
  | raised hb => exact h _ _ _ hb

theorem each {xs : List σ} {f : σ → P F Unit} (h : ∀ x, Only q (f x)) :
    Only q (M.each xs f) := by
  induction xs with
  | nil => exact pure
  | cons x xs ih => exact bind (h x) fun _ => ih

theorem collect {xs : List σ} {f : σ → P F α} (h : ∀ x, Only q (f x)) :
    Only q (M.collect xs f) := by
  induction xs with
  | nil => exact pure
  | cons x xs ih => exact bind (h x) fun _ => bind ih fun _ => pure

theorem command {c : Cmd F} (h : ∀ b, q (.sent c b)) : Only q (Session.command c) := by
  rintro t r (⟨rfl, rfl⟩ | ⟨e, rfl, rfl⟩) ev hev
  · rw [List.mem_singleton] at hev
    rw [hev]
    exact h _
  · rw [List.mem_singleton] at hev
    rw [hev]
    exact h _

theorem writeMessage {c : Cmd F} (h : ∀ b, q (.sent c b)) :
    Only q (Session.writeMessage c) := by
  rintro t r ⟨rfl, -⟩ ev hev
  rw [List.mem_singleton] at hev
  rw [hev]
  exact h _

theorem confEnumerate (h : ∀ b, q (.sent .confEnumerate b)) (h' : ∀ l, q (.listed l)) :
    Only q (Session.confEnumerate : P F _) := by
  rintro t r (⟨l, rfl, -⟩ | ⟨e, rfl, rfl⟩) ev hev
  · rcases List.mem_cons.1 hev with rfl | hev
    · exact h _
    · rw [List.mem_singleton] at hev
      rw [hev]
      exact h' _
  · rw [List.mem_singleton] at hev
    rw [hev]
    exact h _

theorem confGet {k : String} (h : ∀ x, q (.got k x)) (h' : q .reading) :
    Only q (Session.confGet k : P F _) := by
  rintro t r (⟨x, rfl, -⟩ | ⟨rfl, -⟩) ev hev
  · rw [List.mem_singleton] at hev
    rw [hev]
    exact h _
  · rw [List.mem_singleton] at hev
    rw [hev]
    exact h'

theorem readAny (h' : q .reading) : Only q (Session.readAny : P F α) := by
  rintro t r rfl ev hev
  rw [List.mem_singleton] at hev
  rw [hev]
  exact h'

theorem readStatsData (h : ∀ s, q (.stats s)) (h' : q .reading) :
    Only q (Session.readStatsData : P F (Stats F)) := by
  unfold Only
  rintro t r (⟨s, rfl, -⟩ | ⟨rfl, -⟩) ev hev
  · rw [List.mem_singleton.1 hev]
    exact h s
  · rw [List.mem_singleton.1 hev]
    exact h'

theorem anything : Only q (Session.anything : P F α) := by
  rintro t r rfl ev hev
  exact absurd hev (by simp)

theorem clock : Only q (Session.clock : P F F) := by
  rintro t r ⟨rfl, -⟩ ev hev
  exact absurd hev (by simp)

theorem orRaise {e : Exn} {o : Option α} : Only q (Session.orRaise e o : P F α) := by
  cases o
  · exact raise
  · exact pure

theorem mono {q' : Ev F → Prop} {p : P F α} (h : Only q p) (hq : ∀ ev, q ev → q' ev) :
    Only q' p := fun t r hr ev hev => hq _ (h t r hr ev hev)

/-- A property of states that all allowed events preserve is kept. -/
theorem holds {p : P F α} (h : Only q p) {step : S → Ev F → S} {inv : S → Prop}
    (hq : ∀ ev s, q ev → inv s → inv (step s ev)) :
    Holds step inv p (fun _ s => inv s) := by
  intro s hs t r hr
  have h' := h t r hr
  clear hr
  induction t generalizing s with
  | nil => exact hs
  | cons ev t ih =>
    exact ih _ (hq ev s (h' ev (by simp)) hs) fun x hx => h' x (by simp [hx])

end Only

/-- Nothing is claimed. -/
theorem Holds.any {step : S → Ev F → S} {pre : S → Prop} {p : P F α} :
    Holds step pre p (fun _ _ => True) := fun _ _ _ _ _ => trivial

attribute [irreducible] Only

/-- Apply the lemmas about `Only` along the program. -/
macro "only_tac" : tactic => `(tactic| (
  repeat' (first
    | assumption
    | with_reducible exact Only.pure | with_reducible exact Only.raise
    | with_reducible exact Only.anything
    | with_reducible exact Only.clock | with_reducible exact Only.orRaise
    | with_reducible apply Only.bind | with_reducible apply Only.tryCatch
    | with_reducible apply Only.tryFinally
    | with_reducible apply Only.loop | with_reducible apply Only.each
    | with_reducible apply Only.collect
    | with_reducible apply Only.command | with_reducible apply Only.writeMessage
    | with_reducible apply Only.confEnumerate
    | with_reducible apply Only.readStatsData
    | with_reducible apply Only.confGet | with_reducible apply Only.readAny
    | exact trivial
    | (intro _)
    | (split))))

end Verif.Session
