import Verif.Model.Show
import Verif.Props.Queue
/-
C89: looking at the event queue.
-/
namespace Polyskel
open HeapQ

/-- the event is a dormer event -/
def Event.OfDormer {S : Type} : Event S → Prop
  | .dormer .. => True
  | _ => False

/-- C89: `peek` raises IndexError exactly on an empty queue; otherwise it returns the event that `get` would return
(for any comparison of distances, so also with NaN) and leaves the queue as it is. -/
theorem C89_peek {S : Type} [Scalar S] (q : List (Event S)) :
    (peek q = .error .index ↔ q = []) ∧ ∀ e, peek q = .ok e ↔ ∃ q', pop evLt q = some (e, q') := by
  cases q with
  | nil =>
    refine ⟨by simp [peek], fun e => ?_⟩
    constructor
    · intro h
      simp [peek] at h
    · rintro ⟨q', h⟩
      rw [(pop_none evLt ([] : List (Event S))).2 rfl] at h
      cases h
  | cons x q =>
    refine ⟨by simp [peek], fun e => ?_⟩
    constructor
    · intro h
      obtain rfl : x = e := by simpa [peek] using h
      cases hp : pop evLt (x :: q) with
      | none =>
        rw [pop_none] at hp
        cases hp
      | some r =>
        obtain ⟨y, q'⟩ := r
        have := pop_root _ _ _ _ hp
        simp only [List.getElem?_cons_zero, Option.some.injEq] at this
        exact ⟨q', by rw [this]⟩
    · rintro ⟨q', h⟩
      simpa [peek] using pop_root _ _ _ _ h

/-- C89: in exact arithmetic, with whatever history of the queue, no event in it is nearer than that of `peek`. -/
theorem C89_peek_min (q ins out : List (Event ℝ)) (h : Hist evLt q ins out) (e : Event ℝ) (he : peek q = .ok e) :
    e ∈ q ∧ ∀ f ∈ q, e.dist ≤ f.dist := by
  obtain ⟨q', hp⟩ := ((C89_peek q).2 e).1 he
  obtain ⟨h1, h2⟩ := C08_queue_min evLt evLt_weakOrder q ins out h e q' hp
  refine ⟨h1.mem_iff.1 (by simp), fun f hf => ?_⟩
  have := h2 f hf
  simp only [evLt, ex_lt_false] at this
  exact this

/-- C89: `show` prints all events in the order of the heap if there is no dormer event among them.  Otherwise it
prints those before the first dormer event and raises AttributeError: the text of a dormer event asks for an
attribute `id` that is never set, so none can be printed. -/
theorem C89_show {S : Type} [Scalar S] (q : List (Event S)) :
    ((∀ e ∈ q, ¬ e.OfDormer) → showQueue q = (q, .ok ())) ∧
    ∀ q1 d q2, q = q1 ++ d :: q2 → (∀ e ∈ q1, ¬ e.OfDormer) → d.OfDormer →
      showQueue q = (q1, .error .attribute) ∧ d.str = .error .attribute := by
  have hok : ∀ e : Event S, ¬ e.OfDormer → e.str = .ok () := by
    intro e he
    cases e with
    | split e => simp [Event.str, Event.reads, Event.attributes, List.forM_cons, List.forM_nil]; rfl
    | edge e => simp [Event.str, Event.reads, Event.attributes, List.forM_cons, List.forM_nil]; rfl
    | dormer => exact absurd trivial he
  have hbad : ∀ e : Event S, e.OfDormer → e.str = .error .attribute := by
    intro e he
    cases e with
    | split e => exact he.elim
    | edge e => exact he.elim
    | dormer => simp [Event.str, Event.reads, Event.attributes, List.forM_cons, List.forM_nil]; rfl
  constructor
  · intro h
    induction q with
    | nil => rfl
    | cons e q ih =>
      have := ih (fun x hx => h x (by simp [hx]))
      simp [showQueue, hok e (h e (by simp)), this]
  · rintro q1 d q2 rfl h hd
    refine ⟨?_, hbad d hd⟩
    induction q1 with
    | nil => simp [showQueue, hbad d hd]
    | cons e q1 ih =>
      have := ih (fun x hx => h x (by simp [hx]))
      simp [showQueue, hok e (h e (by simp)), this]

/-- case: a queue with a dormer event behind another event -/
example (e : EdgeEv ℝ) (s t : SplitEv ℝ) :
    showQueue [.edge e, .dormer 1 none s t e, .split s] = ([.edge e], .error .attribute) :=
  ((C89_show _).2 [.edge e] (.dormer 1 none s t e) [.split s] rfl (by intro x hx; simp at hx; subst hx; exact id) trivial).1

/-- case: the first of two events -/
example (e : EdgeEv ℝ) (s : SplitEv ℝ) : peek [.edge e, .split s] = .ok (.edge e) :=
  ((C89_peek _).2 _).2 ⟨_, rfl⟩

end Polyskel
