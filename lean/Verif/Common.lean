/-!
# Executions of a model

`Res` is the outcome of one atomic step: a new state, `disabled` (the step cannot be taken in this state:
the caller is blocked or the request breaks the documented calling discipline) or `ub` (the code would
fail an assertion or run into undefined behaviour).
-/

namespace Kasync

/-- Outcome of one atomic step of a model. -/
inductive Res (σ : Type) where
  | ok (s : σ)
  | disabled
  | ub
  deriving Repr, DecidableEq

/-- States reachable from `init` by any finite sequence of steps. -/
inductive Reachable {σ ο : Type} (step : σ → ο → Res σ) (init : σ) : σ → Prop where
  | refl : Reachable step init init
  | tail {s s' : σ} (o : ο) : Reachable step init s → step s o = .ok s' → Reachable step init s'

/-- Runs a list of operations; `none` when one is disabled or undefined. -/
def run {σ ο : Type} (step : σ → ο → Res σ) (s : σ) : List ο → Option σ
  | [] => some s
  | o :: os => match step s o with
    | .ok s' => run step s' os
    | _ => none

variable {σ ο : Type} {step : σ → ο → Res σ} {init : σ}

theorem Reachable.invariant {P : σ → Prop} (h0 : P init)
    (hs : ∀ s o s', P s → step s o = .ok s' → P s') {s : σ} (h : Reachable step init s) : P s := by
  induction h with
  | refl => exact h0
  | tail o _ he ih => exact hs _ o _ ih he

theorem Reachable.trans {a b c : σ} (h1 : Reachable step a b) (h2 : Reachable step b c) :
    Reachable step a c := by
  induction h2 with
  | refl => exact h1
  | tail o _ he ih => exact .tail o ih he

theorem run_append (s : σ) (xs ys : List ο) :
    run step s (xs ++ ys) = (run step s xs).bind (fun s' => run step s' ys) := by
  induction xs generalizing s with
  | nil => rfl
  | cons x xs ih =>
    simp only [List.cons_append, run]
    cases step s x with
    | ok s' => simp [ih]
    | disabled => rfl
    | ub => rfl

theorem reachable_of_run {s : σ} {os : List ο} (h : run step init os = some s) : Reachable step init s := by
  induction os generalizing init with
  | nil => simp only [run, Option.some.injEq] at h; subst h; exact .refl
  | cons o os ih =>
    unfold run at h
    split at h
    · rename_i s' hs
      exact Reachable.trans (.tail o .refl hs) (ih h)
    · cases h

theorem run_of_reachable {s : σ} (h : Reachable step init s) : ∃ os, run step init os = some s := by
  induction h with
  | refl => exact ⟨[], rfl⟩
  | tail o _ he ih =>
    obtain ⟨os, h⟩ := ih
    exact ⟨os ++ [o], by rw [run_append, h]; simp [run, he]⟩

theorem nodup_map_inj {α β : Type} {f : α → β} {l : List α} (h : (l.map f).Nodup) {a b : α} (ha : a ∈ l) (hb : b ∈ l)
    (e : f a = f b) : a = b := by
  induction l with
  | nil => cases ha
  | cons x l ih =>
    rw [List.map_cons, List.nodup_cons] at h
    rcases List.mem_cons.1 ha with rfl | ha' <;> rcases List.mem_cons.1 hb with rfl | hb'
    · rfl
    · exact absurd (List.mem_map.2 ⟨b, hb', e.symm⟩ : f a ∈ l.map f) h.1
    · exact absurd (List.mem_map.2 ⟨a, ha', e⟩ : f b ∈ l.map f) h.1
    · exact ih h.2 ha' hb'

end Kasync
