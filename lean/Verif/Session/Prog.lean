import Mathlib.Data.List.Basic

/-!
# Programs that talk to a device that may answer anything

`moteus_tool.py` is a sequence of commands to the controller, with Python
exceptions, `try`/`except`/`finally` and loops.  A program is modelled here by
the set of its finished executions: a trace of what went over the wire and how
the program ended, with a value or with an exception.  What the device answers
is part of the execution and not restricted, so a statement about all
executions of a program is a statement about all devices, all readings and all
moments at which an exception (a timeout, a lost adapter, Ctrl-C) can occur.
-/

namespace Verif.Session

/-- How a Python call ends. -/
inductive Res (ε α : Type) where
  | ok (a : α)
  | raised (e : ε)
  deriving Repr

/-- A program: its finished executions. -/
def M (ε E α : Type) : Type := List E → Res ε α → Prop

variable {ε E α β σ S : Type}

namespace M

/-- Return a value without talking to the device. -/
def pure' (a : α) : M ε E α := fun t r => t = [] ∧ r = .ok a

/-- Raise an exception. -/
def raise (e : ε) : M ε E α := fun t r => t = [] ∧ r = .raised e

/-- Python's sequencing: an exception of the first statement skips the rest. -/
inductive Bind (p : M ε E α) (f : α → M ε E β) : M ε E β
  | ok {t u a r} : p t (.ok a) → f a u r → Bind p f (t ++ u) r
  | raised {t e} : p t (.raised e) → Bind p f t (.raised e)

instance : Monad (M ε E) where
  pure := pure'
  bind := fun p f => Bind p f

/-- `try: p  except e: h e`. -/
inductive Catch (p : M ε E α) (h : ε → M ε E α) : M ε E α
  | ok {t a} : p t (.ok a) → Catch p h t (.ok a)
  | caught {t e u r} : p t (.raised e) → h e u r → Catch p h (t ++ u) r

/-- `try: p  finally: q`.  An exception of `q` replaces the outcome of `p`. -/
inductive Finally (p : M ε E α) (q : M ε E Unit) : M ε E α
  | done {t r u} : p t r → q u (.ok ()) → Finally p q (t ++ u) r
  | raised {t r u e} : p t r → q u (.raised e) → Finally p q (t ++ u) (.raised e)

/-- `while True`: the body ends one round with the state of the next round, or
leaves the loop with a value. -/
inductive Loop (body : σ → M ε E (σ ⊕ α)) : σ → M ε E α
  | again {s s' t u r} : body s t (.ok (.inl s')) → Loop body s' u r →
      Loop body s (t ++ u) r
  | leave {s t a} : body s t (.ok (.inr a)) → Loop body s t (.ok a)
  | raised {s t e} : body s t (.raised e) → Loop body s t (.raised e)

/-- Python's `for x in xs: …`. -/
def each (xs : List σ) (f : σ → M ε E Unit) : M ε E Unit :=
  match xs with
  | [] => pure ()
  | x :: xs => do f x; each xs f

/-- Python's `[f(x) for x in xs]`. -/
def collect (xs : List σ) (f : σ → M ε E α) : M ε E (List α) :=
  match xs with
  | [] => pure []
  | x :: xs => do
    let a ← f x
    let rest ← collect xs f
    pure (a :: rest)

theorem assoc {γ : Type} (p : M ε E α) (f : α → M ε E β) (g : β → M ε E γ) :
    (p >>= f) >>= g = p >>= fun a => f a >>= g := by
  funext t r
  apply propext
  constructor
  · intro h
    cases h with
    | raised h =>
      cases h with
      | ok h1 h2 => exact Bind.ok h1 (Bind.raised h2)
      | raised h => exact Bind.raised h
    | ok h h3 =>
      cases h with
      | ok h1 h2 =>
        rw [List.append_assoc]
        exact Bind.ok h1 (Bind.ok h2 h3)
  · intro h
    cases h with
    | raised h => exact Bind.raised (Bind.raised h)
    | ok h1 h =>
      cases h with
      | raised h => exact Bind.raised (Bind.ok h1 h)
      | ok h2 h3 =>
        rw [← List.append_assoc]
        exact Bind.ok (Bind.ok h1 h2) h3

theorem pure_then (a : α) (f : α → M ε E β) : (pure a : M ε E α) >>= f = f a := by
  funext t r
  apply propext
  constructor
  · intro h
    cases h with
    | raised h =>
      obtain ⟨-, h⟩ := h
      cases h
    | ok h h2 =>
      obtain ⟨rfl, h⟩ := h
      injection h with h
      subst h
      exact h2
  · intro h
    exact Bind.ok (t := []) ⟨rfl, rfl⟩ h

end M

/-! ## Reasoning about all executions -/

/-- From every state that satisfies `pre`, every execution of `p` ends in a
state that satisfies `post`; the state is computed from the trace by `step`. -/
def Holds (step : S → E → S) (pre : S → Prop) (p : M ε E α)
    (post : Res ε α → S → Prop) : Prop :=
  ∀ s, pre s → ∀ t r, p t r → post r (t.foldl step s)

/-- Some execution of `p` from state `s` ends as `post` says. -/
def Can (step : S → E → S) (s : S) (p : M ε E α) (post : Res ε α → S → Prop) : Prop :=
  ∃ t r, p t r ∧ post r (t.foldl step s)

namespace Holds

variable {step : S → E → S} {pre : S → Prop} {post : Res ε α → S → Prop}

theorem weaken {p : M ε E α} {pre' : S → Prop} {post' : Res ε α → S → Prop}
    (h : Holds step pre p post) (h1 : ∀ s, pre' s → pre s)
    (h2 : ∀ r s, post r s → post' r s) : Holds step pre' p post' :=
  fun s hs t r hr => h2 _ _ (h s (h1 s hs) t r hr)

theorem pure {a : α} (h : ∀ s, pre s → post (.ok a) s) :
    Holds step pre (Pure.pure a : M ε E α) post := by
  rintro s hs t r ⟨rfl, rfl⟩
  exact h s hs

theorem raise {e : ε} (h : ∀ s, pre s → post (.raised e) s) :
    Holds step pre (M.raise e : M ε E α) post := by
  rintro s hs t r ⟨rfl, rfl⟩
  exact h s hs

theorem bind {p : M ε E β} {f : β → M ε E α} {mid : β → S → Prop}
    {Q : Res ε β → S → Prop}
    (h1 : Holds step pre p Q)
    (h2 : ∀ b, ∀ s, Q (.ok b) s → mid b s)
    (h3 : ∀ e, ∀ s, Q (.raised e) s → post (.raised e) s)
    (h4 : ∀ b, Holds step (mid b) (f b) post) :
    Holds step pre (p >>= f) post := by
  intro s hs t r hr
  cases hr with
  | ok hp hf =>
    rw [List.foldl_append]
    exact h4 _ _ (h2 _ _ (h1 s hs _ _ hp)) _ _ hf
  | raised hp => exact h3 _ _ (h1 s hs _ _ hp)

theorem tryCatch {p : M ε E α} {h : ε → M ε E α} {Q : Res ε α → S → Prop}
    (h1 : Holds step pre p Q)
    (h2 : ∀ a s, Q (.ok a) s → post (.ok a) s)
    (h3 : ∀ e, Holds step (Q (.raised e)) (h e) post) :
    Holds step pre (M.Catch p h) post := by
  intro s hs t r hr
  cases hr with
  | ok hp => exact h2 _ _ (h1 s hs _ _ hp)
  | caught hp hh =>
    rw [List.foldl_append]
    exact h3 _ _ (h1 s hs _ _ hp) _ _ hh

theorem tryFinally {p : M ε E α} {q : M ε E Unit} {Q : Res ε α → S → Prop}
    (h1 : Holds step pre p Q)
    (h2 : ∀ r, Holds step (Q r) q (fun x s => match x with
      | .ok () => post r s
      | .raised e => post (.raised e) s)) :
    Holds step pre (M.Finally p q) post := by
  intro s hs t r hr
  cases hr with
  | done hp hq =>
    rw [List.foldl_append]
    exact h2 _ _ (h1 s hs _ _ hp) _ _ hq
  | raised hp hq =>
    rw [List.foldl_append]
    exact h2 _ _ (h1 s hs _ _ hp) _ _ hq

theorem loop {body : σ → M ε E (σ ⊕ α)} {inv : σ → S → Prop}
    (h : ∀ x, Holds step (inv x) (body x) (fun r s => match r with
      | .ok (.inl y) => inv y s
      | .ok (.inr a) => post (.ok a) s
      | .raised e => post (.raised e) s)) (x : σ) :
    Holds step (inv x) (M.Loop body x) post := by
  intro s hs t r hr
  induction hr generalizing s with
  | again hb _ ih =>
    rw [List.foldl_append]
    exact ih _ (h _ s hs _ _ hb)
  | leave hb => exact h _ s hs _ _ hb
  | raised hb => exact h _ s hs _ _ hb

theorem each {xs : List σ} {f : σ → M ε E Unit} {inv : S → Prop}
    {bad : ε → S → Prop}
    (h : ∀ x ∈ xs, Holds step inv (f x) (fun r s => match r with
      | .ok () => inv s
      | .raised e => bad e s)) :
    Holds step inv (M.each xs f) (fun r s => match r with
      | .ok () => inv s
      | .raised e => bad e s) := by
  induction xs with
  | nil => exact Holds.pure fun s hs => hs
  | cons x xs ih =>
    exact Holds.bind (mid := fun _ => inv) (h x (by simp)) (fun _ _ h => h)
      (fun _ _ h => h) fun _ => ih fun y hy => h y (by simp [hy])

theorem collect {xs : List σ} {f : σ → M ε E α} {inv : S → Prop}
    {bad : ε → S → Prop}
    (h : ∀ x ∈ xs, Holds step inv (f x) (fun r s => match r with
      | .ok _ => inv s
      | .raised e => bad e s)) :
    Holds step inv (M.collect xs f) (fun r s => match r with
      | .ok _ => inv s
      | .raised e => bad e s) := by
  induction xs with
  | nil => exact Holds.pure fun s hs => hs
  | cons x xs ih =>
    refine Holds.bind (mid := fun _ => inv) (h x (by simp)) (fun _ _ h => h)
      (fun _ _ h => h) fun _ => ?_
    refine Holds.bind (mid := fun _ => inv) (ih fun y hy => h y (by simp [hy]))
      (fun _ _ h => h) (fun _ _ h => h) fun _ => ?_
    exact Holds.pure fun s hs => hs

end Holds

namespace Can

variable {step : S → E → S} {s : S} {post : Res ε α → S → Prop}

theorem pure {a : α} (h : post (.ok a) s) : Can step s (Pure.pure a : M ε E α) post :=
  ⟨[], .ok a, ⟨rfl, rfl⟩, h⟩

theorem raise {e : ε} (h : post (.raised e) s) :
    Can step s (M.raise e : M ε E α) post :=
  ⟨[], .raised e, ⟨rfl, rfl⟩, h⟩

/-- The first statement ends well with `b` in state `s'`, and the rest can end
as wanted. -/
theorem bind {p : M ε E β} {f : β → M ε E α} (b : β) (s' : S)
    (h1 : Can step s p (fun r x => r = .ok b ∧ x = s'))
    (h2 : Can step s' (f b) post) : Can step s (p >>= f) post := by
  obtain ⟨t, r, hp, rfl, rfl⟩ := h1
  obtain ⟨u, r', hf, h⟩ := h2
  exact ⟨t ++ u, r', M.Bind.ok hp hf, by rwa [List.foldl_append]⟩

/-- The first statement raises. -/
theorem bindRaise {p : M ε E β} {f : β → M ε E α} (e : ε)
    (h1 : Can step s p (fun r x => r = .raised e ∧ post (.raised e) x)) :
    Can step s (p >>= f) post := by
  obtain ⟨t, r, hp, rfl, h⟩ := h1
  exact ⟨t, _, M.Bind.raised hp, h⟩

theorem again {body : σ → M ε E (σ ⊕ α)} {x : σ} (y : σ) (s' : S)
    (h1 : Can step s (body x) (fun r z => r = .ok (.inl y) ∧ z = s'))
    (h2 : Can step s' (M.Loop body y) post) : Can step s (M.Loop body x) post := by
  obtain ⟨t, r, hp, rfl, rfl⟩ := h1
  obtain ⟨u, r', hf, h⟩ := h2
  exact ⟨t ++ u, r', M.Loop.again hp hf, by rwa [List.foldl_append]⟩

theorem leave {body : σ → M ε E (σ ⊕ α)} {x : σ} (a : α)
    (h1 : Can step s (body x) (fun r z => r = .ok (.inr a) ∧ post (.ok a) z)) :
    Can step s (M.Loop body x) post := by
  obtain ⟨t, r, hp, rfl, h⟩ := h1
  exact ⟨t, _, M.Loop.leave hp, h⟩

theorem loopRaise {body : σ → M ε E (σ ⊕ α)} {x : σ} (e : ε)
    (h1 : Can step s (body x) (fun r z => r = .raised e ∧ post (.raised e) z)) :
    Can step s (M.Loop body x) post := by
  obtain ⟨t, r, hp, rfl, h⟩ := h1
  exact ⟨t, _, M.Loop.raised hp, h⟩

theorem tryOk {p : M ε E α} {h : ε → M ε E α}
    (h1 : Can step s p (fun r z => ∃ a, r = .ok a ∧ post (.ok a) z)) :
    Can step s (M.Catch p h) post := by
  obtain ⟨t, r, hp, a, rfl, h⟩ := h1
  exact ⟨t, _, M.Catch.ok hp, h⟩

theorem caught {p : M ε E α} {h : ε → M ε E α} (e : ε) (s' : S)
    (h1 : Can step s p (fun r z => r = .raised e ∧ z = s'))
    (h2 : Can step s' (h e) post) : Can step s (M.Catch p h) post := by
  obtain ⟨t, r, hp, rfl, rfl⟩ := h1
  obtain ⟨u, r', hf, h⟩ := h2
  exact ⟨t ++ u, r', M.Catch.caught hp hf, by rwa [List.foldl_append]⟩

theorem finallyOk {p : M ε E α} {q : M ε E Unit} (r : Res ε α) (s' : S)
    (h1 : Can step s p (fun x z => x = r ∧ z = s'))
    (h2 : Can step s' q (fun x z => x = .ok () ∧ post r z)) :
    Can step s (M.Finally p q) post := by
  obtain ⟨t, r', hp, rfl, rfl⟩ := h1
  obtain ⟨u, x, hq, rfl, h⟩ := h2
  exact ⟨t ++ u, _, M.Finally.done hp hq, by rwa [List.foldl_append]⟩

end Can

end Verif.Session
