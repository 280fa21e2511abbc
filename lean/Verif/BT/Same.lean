import Verif.BT.Struct
import Verif.BT.Lifecycle

/-!
# Trees that behave alike

Two nodes behave alike if no sequence of operations tells them apart by answers, states or names.
-/

set_option autoImplicit false

namespace Verif.BT.Laws

variable {N M : Type}

/-- What is seen of a node while operations are performed on it: answers, and state and name afterwards. -/
def look (o : Ops N) : List Op → N → List (Res × BTState × Nat)
  | [], _ => []
  | op :: h, t => ((o.run op t).res, o.state (o.run op t).node, o.name (o.run op t).node) :: look o h (o.run op t).node

/-- Two nodes behave alike. -/
structure Same (o : Ops N) (o' : Ops M) (a : N) (b : M) : Prop where
  state : o.state a = o'.state b
  name : o.name a = o'.name b
  look : ∀ h, look o h a = look o' h b

/-- A relation that is kept by all operations, between nodes of the same state and name. -/
def Bisim (o : Ops N) (o' : Ops M) (R : N → M → Prop) : Prop :=
  ∀ a b, R a b → o.state a = o'.state b ∧ o.name a = o'.name b ∧ ∀ op, (o.run op a).res = (o'.run op b).res ∧ R (o.run op a).node (o'.run op b).node

theorem same_of_bisim {o : Ops N} {o' : Ops M} {R : N → M → Prop} (h : Bisim o o' R) {a : N} {b : M} (hab : R a b) : Same o o' a b := by
  refine ⟨(h a b hab).1, (h a b hab).2.1, fun l => ?_⟩
  induction l generalizing a b with
  | nil => rfl
  | cons op l ih =>
    obtain ⟨h1, h2⟩ := (h a b hab).2.2 op
    have h3 := h _ _ h2
    simp only [Laws.look, h1, h3.1, h3.2.1, ih h2]

theorem same_bisim (o : Ops N) (o' : Ops M) : Bisim o o' (Same o o') := by
  intro a b h
  refine ⟨h.state, h.name, fun op => ?_⟩
  have h1 := h.look [op]
  simp only [Laws.look, List.cons.injEq, Prod.mk.injEq, and_true] at h1
  refine ⟨h1.1, h1.2.1, h1.2.2, fun l => ?_⟩
  have h2 := h.look (op :: l)
  simp only [Laws.look, List.cons.injEq] at h2
  exact h2.2

theorem same_refl (o : Ops N) (a : N) : Same o o a a := ⟨rfl, rfl, fun _ => rfl⟩

theorem same_symm {o : Ops N} {o' : Ops M} {a : N} {b : M} (h : Same o o' a b) : Same o' o b a := ⟨h.state.symm, h.name.symm, fun l => (h.look l).symm⟩

theorem same_trans {K : Type} {o : Ops N} {o' : Ops M} {o'' : Ops K} {a : N} {b : M} {c : K} (h : Same o o' a b) (h' : Same o' o'' b c) : Same o o'' a c :=
  ⟨h.state.trans h'.state, h.name.trans h'.name, fun l => (h.look l).trans (h'.look l)⟩

/-! ### Lists of nodes that are related one by one -/

/-- The elements of two lists are related one by one. -/
inductive Each (R : N → M → Prop) : List N → List M → Prop
  | nil : Each R [] []
  | cons {a : N} {b : M} {l : List N} {m : List M} : R a b → Each R l m → Each R (a :: l) (b :: m)

theorem Each.length {R : N → M → Prop} {l : List N} {m : List M} (h : Each R l m) : l.length = m.length := by
  induction h with
  | nil => rfl
  | cons _ _ ih => simp [ih]

theorem Each.get {R : N → M → Prop} {l : List N} {m : List M} (h : Each R l m) : ∀ i : Nat, (l[i]? = none ∧ m[i]? = none) ∨ ∃ a b, l[i]? = some a ∧ m[i]? = some b ∧ R a b := by
  induction h with
  | nil => intro i; exact Or.inl ⟨rfl, rfl⟩
  | cons hab _ ih =>
    intro i
    cases i with
    | zero => exact Or.inr ⟨_, _, rfl, rfl, hab⟩
    | succ i => simpa using ih i

theorem Each.set {R : N → M → Prop} {l : List N} {m : List M} (h : Each R l m) {a : N} {b : M} (hab : R a b) : ∀ i, Each R (l.set i a) (m.set i b) := by
  induction h with
  | nil => intro i; exact .nil
  | cons h0 ht ih =>
    intro i
    cases i with
    | zero => exact .cons hab ht
    | succ i => exact .cons h0 (ih i)

theorem Each.append {R : N → M → Prop} {l l' : List N} {m m' : List M} (h : Each R l m) (h' : Each R l' m') : Each R (l ++ l') (m ++ m') := by
  induction h with
  | nil => exact h'
  | cons h0 _ ih => exact .cons h0 ih

theorem Each.map {R : N → M → Prop} {α : Type} {f : N → α} {g : M → α} {l : List N} {m : List M} (h : Each R l m) (hf : ∀ a b, R a b → f a = g b) : l.map f = m.map g := by
  induction h with
  | nil => rfl
  | cons h0 _ ih => simp [hf _ _ h0, ih]

theorem each_refl {R : N → N → Prop} (hr : ∀ a, R a a) : ∀ l, Each R l l
  | [] => .nil
  | a :: l => .cons (hr a) (each_refl hr l)

/-! ### A node over children that behave alike -/

/-- Two nodes that differ only in their id and in their children, which are related one by one. -/
structure Over (R : N → M → Prop) (a : Node N) (b : Node M) : Prop where
  name : a.name = b.name
  kind : a.kind = b.kind
  state : a.state = b.state
  mem : a.mem = b.mem
  env : a.env = b.env
  ctr : a.ctr = b.ctr
  children : Each R a.children b.children

theorem exec_over {o : Ops N} {o' : Ops M} {R : N → M → Prop} (h : Bisim o o' R) (p : Prog) : ∀ (cs : List N) (ds : List M), Each R cs ds →
    (exec o p cs).mem = (exec o' p ds).mem ∧ (exec o p cs).res = (exec o' p ds).res ∧ Each R (exec o p cs).children (exec o' p ds).children := by
  induction p with
  | done m r => intro cs ds hc; exact ⟨rfl, rfl, hc⟩
  | call op i k ih =>
    intro cs ds hc
    rcases hc.get i with ⟨h1, h2⟩ | ⟨a, b, h1, h2, hab⟩
    · simp only [exec, h1, h2]; exact ih _ _ _ hc
    · simp only [exec, h1, h2]
      obtain ⟨h3, h4⟩ := (h a b hab).2.2 op
      rw [h3]
      exact ih _ _ _ (hc.set h4 i)
  | peek i k ih =>
    intro cs ds hc
    rcases hc.get i with ⟨h1, h2⟩ | ⟨a, b, h1, h2, hab⟩
    · simp only [exec, h1, h2]; exact ih _ _ _ hc
    · simp only [exec, h1, h2]
      rw [(h a b hab).1]
      exact ih _ _ _ hc

theorem shutdownAll_over {o : Ops N} {o' : Ops M} {R : N → M → Prop} (h : Bisim o o' R) {cs : List N} {ds : List M} (hc : Each R cs ds) :
    Each R (shutdownAll o cs).1 (shutdownAll o' ds).1 ∧ (shutdownAll o cs).2.1 = (shutdownAll o' ds).2.1 := by
  induction hc with
  | nil => exact ⟨.nil, rfl⟩
  | cons hab _ ih =>
    obtain ⟨h3, h4⟩ := (h _ _ hab).2.2 .shutdown
    exact ⟨.cons h4 ih.1, by simp only [shutdownAll]; rw [h3, ih.2]⟩

theorem over_bisim {o : Ops N} {o' : Ops M} {R : N → M → Prop} (h : Bisim o o' R) : Bisim (Node.ops o) (Node.ops o') (Over R) := by
  intro a b hab
  refine ⟨hab.state, hab.name, fun op => ?_⟩
  obtain ⟨i, nm, k, st, m, e, c, cs⟩ := a
  obtain ⟨i', nm', k', st', m', e', c', ds⟩ := b
  obtain ⟨h1, h2, h3, h4, h5, h6, h7⟩ := hab
  dsimp only at h1 h2 h3 h4 h5 h6 h7
  subst h1 h2 h3 h4 h5 h6
  have hn : cs.map o.name = ds.map o'.name := h7.map fun a b hab => (h a b hab).2.1
  have hx := fun op => exec_over h (hookProg k op st m (e c) (ds.map o'.name)) cs ds h7
  have fin : ∀ (s : BTState) (m1 : Mem) (i i' : Nat) (cs : List N) (ds : List M) (l l' : List Call) (t t' : List Ev), Each R cs ds →
      (Node.finishShutdown o ⟨i, nm, k, s, m1, e, c + 1, cs⟩ l t).res = (Node.finishShutdown o' ⟨i', nm, k, s, m1, e, c + 1, ds⟩ l' t').res ∧
      Over R (Node.finishShutdown o ⟨i, nm, k, s, m1, e, c + 1, cs⟩ l t).node (Node.finishShutdown o' ⟨i', nm, k, s, m1, e, c + 1, ds⟩ l' t').node := by
    intro s m1 i i' cs ds l l' t t' hc
    obtain ⟨s1, s2⟩ := shutdownAll_over h hc
    unfold Node.finishShutdown
    split
    · dsimp only [Node.wrap]
      rw [s2]
      exact ⟨rfl, ⟨rfl, rfl, rfl, rfl, rfl, rfl, s1⟩⟩
    · exact ⟨rfl, ⟨rfl, rfl, rfl, rfl, rfl, rfl, hc⟩⟩
  have plain : ∀ op, (Node.runPlain o op (e c) ⟨i, nm, k, st, m, e, c + 1, cs⟩).res = (Node.runPlain o' op (e c) ⟨i', nm, k, st, m, e, c + 1, ds⟩).res ∧
      Over R (Node.runPlain o op (e c) ⟨i, nm, k, st, m, e, c + 1, cs⟩).node (Node.runPlain o' op (e c) ⟨i', nm, k, st, m, e, c + 1, ds⟩).node := by
    intro op
    unfold Node.runPlain Node.runHook
    dsimp only
    split
    · rw [hn]
      obtain ⟨x1, x2, x3⟩ := hx op
      rw [x1, x2]
      split
      · exact ⟨rfl, ⟨rfl, rfl, rfl, rfl, rfl, rfl, x3⟩⟩
      · split
        · exact ⟨rfl, ⟨rfl, rfl, rfl, rfl, rfl, rfl, x3⟩⟩
        · exact ⟨rfl, ⟨rfl, rfl, rfl, rfl, rfl, rfl, x3⟩⟩
    · exact ⟨rfl, ⟨rfl, rfl, rfl, rfl, rfl, rfl, h7⟩⟩
  show (Node.run o op _).res = (Node.run o' op _).res ∧ Over R (Node.run o op _).node (Node.run o' op _).node
  unfold Node.run
  dsimp only
  cases op with
  | setup => exact plain .setup
  | untick => exact plain .untick
  | reset => exact plain .reset
  | tick =>
    dsimp only
    unfold Node.runTick Node.runHook
    dsimp only
    split
    · split
      · rw [hn]
        obtain ⟨x1, x2, x3⟩ := hx .tick
        rw [x1, x2]
        split
        · exact ⟨rfl, ⟨rfl, rfl, rfl, rfl, rfl, rfl, x3⟩⟩
        · split
          · split
            · exact ⟨rfl, ⟨rfl, rfl, rfl, rfl, rfl, rfl, x3⟩⟩
            · exact ⟨rfl, ⟨rfl, rfl, rfl, rfl, rfl, rfl, x3⟩⟩
          · exact ⟨rfl, ⟨rfl, rfl, rfl, rfl, rfl, rfl, x3⟩⟩
      · exact ⟨rfl, ⟨rfl, rfl, rfl, rfl, rfl, rfl, h7⟩⟩
    · exact ⟨rfl, ⟨rfl, rfl, rfl, rfl, rfl, rfl, h7⟩⟩
  | shutdown =>
    dsimp only
    unfold Node.runShutdown Node.runHook
    dsimp only
    split
    · exact fin _ _ _ _ _ _ _ _ _ _ h7
    · rw [hn]
      obtain ⟨x1, x2, x3⟩ := hx .shutdown
      rw [x1, x2]
      split
      · exact ⟨rfl, ⟨rfl, rfl, rfl, rfl, rfl, rfl, x3⟩⟩
      · split
        · exact fin _ _ _ _ _ _ _ _ _ _ x3
        · exact ⟨rfl, ⟨rfl, rfl, rfl, rfl, rfl, rfl, x3⟩⟩

/-- A tree in which subtrees, at any places and depths, have been exchanged for others that behave alike. -/
inductive Rewritten : (n m : Nat) → Tree n → Tree m → Prop
  | here {n m : Nat} {a : Tree n} {b : Tree m} : Same (ops n) (ops m) a b → Rewritten n m a b
  | under {n m : Nat} {a : Node (Tree n)} {b : Node (Tree m)} : Over (fun _ _ => True) a b → (∀ (i : Nat) c d, a.children[i]? = some c → b.children[i]? = some d → Rewritten n m c d) →
      Rewritten (n + 1) (m + 1) a b

theorem each_of {R : N → M → Prop} : ∀ {l : List N} {m : List M}, Each (fun _ _ => True) l m → (∀ (i : Nat) a b, l[i]? = some a → m[i]? = some b → R a b) → Each R l m := by
  intro l m h
  induction h with
  | nil => intro _; exact .nil
  | cons _ _ ih => intro hr; exact .cons (hr 0 _ _ rfl rfl) (ih fun i a b h1 h2 => hr (i + 1) a b (by simpa using h1) (by simpa using h2))

/-- **C98.** If subtrees of a tree are exchanged for others that behave alike, at whatever places and below whatever nodes, the whole tree behaves as before. -/
theorem c98_context (n m : Nat) (a : Tree n) (b : Tree m) (h : Rewritten n m a b) : Same (ops n) (ops m) a b := by
  induction h with
  | here h => exact h
  | under h _ ih =>
    exact same_of_bisim (over_bisim (same_bisim _ _)) ⟨h.name, h.kind, h.state, h.mem, h.env, h.ctr, each_of h.children fun i c d h1 h2 => ih i c d h1 h2⟩

end Verif.BT.Laws
