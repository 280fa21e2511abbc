import Verif.BT.FinishKinds

/-!
# C105: trees finish
-/

set_option autoImplicit false

namespace Verif.BT.Finish

open Verif.BT.Laws

/-- What is known about a tree at any time. -/
def Ready (β : Nat → Nat) (n : Nat) (t : Tree n) : Prop :=
  AllNodes (fun nd => Tame (β nd.id) nd.children.length nd.kind nd.env ∧ MemOk (β nd.id) nd.kind nd.env nd.mem) n t

theorem memOk_fresh (b : Nat) (k : Kind) (env : Nat → Env) : MemOk b k env {} := by
  cases k <;> simp [MemOk] <;> omega

theorem ready_of_fresh (β : Nat → Nat) : ∀ (n : Nat) (t : Tree n), Fresh n t → TameTree β n t → Ready β n t
  | 0, t, _, _ => Empty.elim t
  | n + 1, t, h1, h2 => by
    let nd : Node (Tree n) := t
    refine ⟨⟨h2.1, ?_⟩, fun c hc => ready_of_fresh β n c (h1.2 c hc) (h2.2 c hc)⟩
    have : nd.mem = {} := h1.1.2
    show MemOk (β nd.id) nd.kind nd.env nd.mem
    rw [this]
    exact memOk_fresh _ _ _

theorem tree_prompt (β : Nat → Nat) : ∀ (n : Nat) (t : Tree n), Ready β n t → Prompt (ops n) (bound β n t) t
  | 0, t, _ => Empty.elim t
  | n + 1, t, h => by
    let nd : Node (Tree n) := t
    have hk : Known (ops n) nd.children (nd.children.map (bound β n)) := by
      have : ∀ cs : List (Tree n), (∀ c ∈ cs, Prompt (ops n) (bound β n c) c) → Known (ops n) cs (cs.map (bound β n)) := by
        intro cs
        induction cs with
        | nil => intro _; exact .nil
        | cons c cs ih => intro hc; exact .cons (hc c (by simp)) (ih fun c' h' => hc c' (by simp [h']))
      exact this _ fun c hc => tree_prompt β n c (h.2 c hc)
    have ht : Tame (β nd.id) (nd.children.map (bound β n)).length nd.kind nd.env := by
      rw [List.length_map]; exact h.1.1
    exact node_prompt (ops n) (ops_sound n) ht nd ⟨rfl, rfl, h.1.2, hk⟩

/-- **C105, bound.** Take a freshly created tree for whose nodes the numbers `β` are known, perform any
operations on it, and then tick it: not later than after `bound` ticks answered RUNNING comes an answer SUCCEEDED,
FAILED or an error. -/
theorem c105_trees_finish (β : Nat → Nat) (n : Nat) (t : Tree n) (hf : Fresh n t) (ht : TameTree β n t) (h : List Op) :
    ∃ k, k ≤ bound β n t ∧ Ends (answer (ops n) k (runs (ops n) h t).2) := by
  have hp := tree_prompt β n t (ready_of_fresh β n t hf ht)
  have runs_append : ∀ (h l : List Op) (t : Tree n), (runs (ops n) l (runs (ops n) h t).2).2 = (runs (ops n) (h ++ l) t).2 := by
    intro h
    induction h with
    | nil => intro l t; rfl
    | cons op h ih => intro l t; exact ih l _
  refine prompt_ends (fun l => ?_) (hp h).2
  rw [runs_append]
  exact (hp (h ++ l)).1

/-- **C105, answers.** Every tick of such a tree is answered RUNNING, SUCCEEDED, FAILED or with an error. -/
theorem c105_answers (β : Nat → Nat) (n : Nat) (t : Tree n) (hf : Fresh n t) (ht : TameTree β n t) (h : List Op) :
    ((ops n).run .tick (runs (ops n) h t).2).res = .ok .running ∨ Ends ((ops n).run .tick (runs (ops n) h t).2).res :=
  (tree_prompt β n t (ready_of_fresh β n t hf ht) h).1

/-- The number for a row of children is the product of their numbers of ticks, less one. -/
theorem c105_row_is_product (bs : List Nat) : rowBound bs + 1 = bs.foldr (fun b x => x * (b + 1)) 1 := by
  induction bs with
  | nil => rfl
  | cons b bs ih => simp only [rowBound, List.foldr_cons, ← ih, Nat.succ_mul]; omega

/-! ### Witnesses -/

/-- A leaf that is RUNNING at every other tick. -/
def slowLeaf (n id : Nat) : Tree (n + 1) :=
  mk n id .leaf [] fun i => { hook := if i = 0 then .ok .idle else if i % 2 = 1 then .ok .running else .ok .succeeded }

/-- Two such leaves under a Sequence. -/
def slowSeq : Tree 2 := mk 1 1 .sequence [slowLeaf 0 2, slowLeaf 0 3]

theorem slowLeaf_tame (n id : Nat) (β : Nat → Nat) (h : 1 ≤ β id) : TameTree β (n + 1) (slowLeaf n id) := by
  refine ⟨⟨fun i => ?_, fun i => ?_⟩, fun c hc => by cases hc⟩
  · by_cases h0 : (slowLeaf n id : Node (Tree n)).env i = { hook := .ok .running }
    · refine ⟨i + 1, by omega, ?_, ?_⟩
      · show i + 1 ≤ i + β id; omega
      · show (if i + 1 = 0 then Res.ok BTState.idle else if (i + 1) % 2 = 1 then .ok .running else .ok .succeeded) ≠ .ok .running
        have : i % 2 = 1 := by
          have h1 : (if i = 0 then Res.ok BTState.idle else if i % 2 = 1 then .ok .running else .ok .succeeded) = .ok .running := congrArg Env.hook h0
          split at h1
          · cases h1
          · split at h1
            · assumption
            · cases h1
        have h2 : ¬ (i + 1) % 2 = 1 := by omega
        simp [h2]
    · refine ⟨i, by omega, by omega, ?_⟩
      intro h1
      apply h0
      have h1 : (if i = 0 then Res.ok BTState.idle else if i % 2 = 1 then .ok .running else .ok .succeeded) = .ok .running := h1
      show ({ hook := if i = 0 then Res.ok BTState.idle else if i % 2 = 1 then .ok .running else .ok .succeeded } : Env) = _
      rw [h1]
  · show (if i = 0 then Res.ok BTState.idle else if i % 2 = 1 then .ok .running else .ok .succeeded) ≠ _ ∧ (if i = 0 then Res.ok BTState.idle else if i % 2 = 1 then .ok .running else .ok .succeeded) ≠ _
    split
    · simp
    · split <;> simp

example : Fresh 2 slowSeq ∧ TameTree (fun _ => 1) 2 slowSeq ∧ bound (fun _ => 1) 2 slowSeq = 3 :=
  ⟨by decide, ⟨trivial, fun c hc => by
    have hc : c ∈ [slowLeaf 0 2, slowLeaf 0 3] := hc
    simp only [List.mem_cons, List.not_mem_nil, or_false] at hc
    rcases hc with rfl | rfl <;> exact slowLeaf_tame 0 _ (fun _ => 1) (Nat.le_refl 1)⟩, rfl⟩

/-- **C105, the bound is reached.** The Sequence over two leaves that are RUNNING once needs four ticks. -/
theorem c105_bound_reached : let t := (runs (ops 2) [.setup] slowSeq).2
    (List.range 4).map (fun k => answer (ops 2) k t) = [.ok .running, .ok .running, .ok .running, .ok .succeeded] := by decide

/-- Odd numbers. -/
def odd : Nat → Bool
  | 0 => false
  | i + 1 => !odd i

/-- A leaf that ends every tick with the given state and answers every reset. -/
def fastLeaf (s : BTState) (st : BTState) (i : Nat) : Tree 1 :=
  (⟨2, 2, .leaf, st, {}, fun i => if odd i then { hook := .ok s } else { hook := .ok .idle }, i, []⟩ : Node (Tree 0))

theorem fastLeaf_tick (s : BTState) (i : Nat) (hs : s = .succeeded ∨ s = .failed) (hi : odd i = true) :
    (ops 1).run .tick (fastLeaf s .idle i) = ⟨fastLeaf s s (i + 1), .ok s, [], [.call .tick 2, .hook .tick 2, .ret .tick 2 (.ok s)]⟩ := by
  have e : (ops 1).run .tick (fastLeaf s .idle i) = Node.runTick (ops 0) (if odd i then { hook := .ok s } else { hook := .ok .idle }) (fastLeaf s .idle (i + 1)) := rfl
  rw [e, hi]
  rcases hs with rfl | rfl <;> rfl

theorem fastLeaf_reset (s : BTState) (i : Nat) (hs : s = .succeeded ∨ s = .failed) (hi : odd i = false) :
    (ops 1).run .reset (fastLeaf s s i) = ⟨fastLeaf s .idle (i + 1), .ok .idle, [], [.call .reset 2, .hook .reset 2, .ret .reset 2 (.ok .idle)]⟩ := by
  have e : (ops 1).run .reset (fastLeaf s s i) = Node.runPlain (ops 0) .reset (if odd i then { hook := .ok s } else { hook := .ok .idle }) (fastLeaf s s (i + 1)) := rfl
  rw [e, hi]
  rcases hs with rfl | rfl <;> rfl

/-- Such a leaf under a decorator. -/
def again (k : Kind) (s st : BTState) (p i : Nat) : Tree 2 :=
  (⟨1, 1, k, st, {}, fun _ => {}, p, [fastLeaf s .idle i]⟩ : Node (Tree 1))

/-- **C105, endless decorators.** UntilSuccess, RepeatIfFail, RepeatUntilFail and RepeatAlways can answer RUNNING for
ever although their child is never RUNNING. -/
theorem c105_endless (k : Kind) (hk : k ∈ [Kind.untilSuccess, .repeatIfFail, .repeatUntilFail, .repeatAlways]) :
    ∃ t : Tree 2, Fresh 2 t ∧ Node.kind (N := Tree 1) t = k ∧ (∀ c ∈ Node.children (N := Tree 1) t, TameTree (fun _ => 0) 1 c) ∧
      (ops 2).state (runs (ops 2) [.setup] t).2 = .idle ∧ ∀ j, answer (ops 2) j (runs (ops 2) [.setup] t).2 = .ok .running := by
  have main : ∀ s : BTState, s = .failed ∧ (k = .untilSuccess ∨ k = .repeatIfFail) ∨ s = .succeeded ∧ (k = .repeatUntilFail ∨ k = .repeatAlways) → ∃ t : Tree 2, Fresh 2 t ∧ Node.kind (N := Tree 1) t = k ∧ (∀ c ∈ Node.children (N := Tree 1) t, TameTree (fun _ => 0) 1 c) ∧
      (ops 2).state (runs (ops 2) [.setup] t).2 = .idle ∧ ∀ j, answer (ops 2) j (runs (ops 2) [.setup] t).2 = .ok .running := by
    intro s hs
    have hs' : s = .succeeded ∨ s = .failed := by rcases hs with ⟨h, _⟩ | ⟨h, _⟩ <;> simp [h]
    refine ⟨mk 1 1 k [fastLeaf s .uninitialized 0], ?_, rfl, ?_, ?_⟩
    · exact ⟨⟨rfl, rfl⟩, fun c hc => by
        have hc : c ∈ [fastLeaf s .uninitialized 0] := hc
        simp only [List.mem_singleton] at hc
        subst hc
        exact ⟨⟨rfl, rfl⟩, fun c hc => by cases hc⟩⟩
    · intro c hc
      have hc : c ∈ [fastLeaf s .uninitialized 0] := hc
      simp only [List.mem_singleton] at hc
      subst hc
      refine ⟨⟨fun i => ⟨i, Nat.le_refl _, Nat.le_refl _, ?_⟩, fun i => ?_⟩, fun c hc => by cases hc⟩
      · show (if odd i then ({ hook := .ok s } : Env) else { hook := .ok .idle }).hook ≠ _
        rcases hs' with rfl | rfl <;> split <;> simp
      · show (if odd i then ({ hook := .ok s } : Env) else { hook := .ok .idle }).hook ≠ _ ∧ (if odd i then ({ hook := .ok s } : Env) else { hook := .ok .idle }).hook ≠ _
        rcases hs' with rfl | rfl <;> split <;> simp
    · have h0 : (runs (ops 2) [.setup] (mk 1 1 k [fastLeaf s .uninitialized 0])).2 = again k s .idle 1 1 := by
        rcases hs with ⟨rfl, rfl | rfl⟩ | ⟨rfl, rfl | rfl⟩ <;> rfl
      rw [h0]
      have step : ∀ st p i, st = .idle ∨ st = .running → odd i = true → ((ops 2).run .tick (again k s st p i)).res = .ok .running ∧ ((ops 2).run .tick (again k s st p i)).node = again k s .running (p + 1) (i + 2) := by
        intro st p i hst hi
        have hi2 : odd (i + 1) = false := by simp [odd, hi]
        have hx : ∀ kk : Kind, kk = k → core (exec (ops 1) (hookProg kk .tick st {} {} [(ops 1).name (fastLeaf s .idle i)]) [fastLeaf s .idle i]) = ([fastLeaf s .idle (i + 2)], {}, .ok .running) := by
          rintro kk rfl
          rcases hs with ⟨rfl, rfl | rfl⟩ | ⟨rfl, rfl | rfl⟩ <;>
            simp [hookProg, tickHook, Prog.tickResetOn, exec, core, fastLeaf_tick _ _ hs' hi, fastLeaf_reset _ _ hs' hi2, Res.map]
        obtain ⟨x1, x2, x3⟩ := core_eq (hx k rfl)
        have ha : accepts .tick st = true := by rcases hst with rfl | rfl <;> rfl
        have e : (ops 2).run .tick (again k s st p i) = Node.runTick (ops 1) {} (again k s st (p + 1) i) := rfl
        rw [e]
        unfold Node.runTick Node.runHook
        simp only [again, ha, if_true, List.map_cons, List.map_nil, x1, x2, x3]
        exact ⟨rfl, rfl⟩
      have all : ∀ j st p i, st = .idle ∨ st = .running → odd i = true → answer (ops 2) j (again k s st p i) = .ok .running := by
        intro j
        induction j with
        | zero => intro st p i h hi; exact (step st p i h hi).1
        | succ j ih =>
          intro st p i h hi
          show answer (ops 2) j ((ops 2).run .tick (again k s st p i)).node = _
          rw [(step st p i h hi).2]
          exact ih _ _ _ (Or.inr rfl) (by simp [odd, hi])
      exact ⟨rfl, fun j => all j _ _ _ (Or.inl rfl) rfl⟩
  simp only [List.mem_cons, List.not_mem_nil, or_false] at hk
  rcases hk with rfl | rfl | rfl | rfl
  · exact main .failed (by simp)
  · exact main .failed (by simp)
  · exact main .succeeded (by simp)
  · exact main .succeeded (by simp)

end Verif.BT.Finish
