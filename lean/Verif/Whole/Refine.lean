import Verif.BT.Same
import Verif.BT.Alive
import Verif.BT.Quiet
import Verif.BT.Sample
import Verif.Whole.Values

/-! C125: trees with data behave like the trees of `Verif/BT`, whose nodes get their answers from anywhere. -/

set_option autoImplicit false

namespace Verif.Whole.Refine

open Verif.Data hiding Env
open Verif.BT (BTState Res Op Mem Prog hookProg)
open Verif.BT.Laws (Each Bisim)
open Verif.Whole.Values

-- whatever classes keep in attributes beside those of `Mem`
variable {S : Type}

/-! ### Hooks with data of the classes of `Verif/BT/Hooks.lean` -/

/-- A hook with data does what a hook without data does for some answers of the outside world, whatever it finds in its data: `E` are the answers
that fit to what has happened so far. -/
def Like : (BT.Env → Prop) → Hook (Mem × S) → (BT.Env → Prog) → Prop
  | E, .done m r, q => ∃ e, E e ∧ q e = .done m.1 r
  | E, .call a i k, q => ∃ (E' : BT.Env → Prop) (k' : BT.Env → Res → Prog), (∀ e, E' e → E e ∧ q e = .call a.op i (k' e)) ∧ ∀ r, Like E' (k r) fun e => k' e r
  | E, .peek i k, q => ∃ (E' : BT.Env → Prop) (k' : BT.Env → BTState → Prog), (∀ e, E' e → E e ∧ q e = .peek i (k' e)) ∧ ∀ s, Like E' (k s) fun e => k' e s
  | E, .read k, q => ∀ d, Like E (k d) q
  | E, .write _ _ k, q => ∀ r, Like E (k r) q

/-- Two nodes, one with data and one without, of the same class, in the same state. -/
structure Twin {N N' : Type} (R : N → N' → Prop) (a : Node (Mem × S) N) (b : BT.Node N') : Prop where
  id : a.id = b.id
  name : a.name = b.name
  state : a.state = b.state
  mem : a.mem.1 = b.mem
  ctr : a.ctr = b.ctr
  hook : ∀ op c st m names, Like (fun _ => True) (a.hook op c st m names) fun e => hookProg b.kind op.op st m.1 e names
  children : Each R a.children b.children

/-- Two nodes without data that cannot be told apart from now on: the answers of the outside world may have been different before. -/
structure Later {N : Type} (R : N → N → Prop) (a b : BT.Node N) : Prop where
  id : a.id = b.id
  name : a.name = b.name
  kind : a.kind = b.kind
  state : a.state = b.state
  mem : a.mem = b.mem
  ctr : a.ctr = b.ctr
  env : ∀ i, a.ctr ≤ i → a.env i = b.env i
  children : Each R a.children b.children

theorem later_bisim {N : Type} {o : BT.Ops N} {R : N → N → Prop} (h : Bisim o o R) : Bisim (BT.Node.ops o) (BT.Node.ops o) (Later R) := by
  intro a b hab
  refine ⟨hab.state, hab.name, fun op => ?_⟩
  obtain ⟨i, nm, k, st, m, e, c, cs⟩ := a
  obtain ⟨i', nm', k', st', m', e', c', ds⟩ := b
  obtain ⟨h0, h1, h2, h3, h4, h6, h5, h7⟩ := hab
  dsimp only at h0 h1 h2 h3 h4 h5 h6 h7
  subst h0 h1 h2 h3 h4 h6
  have hn : cs.map o.name = ds.map o.name := h7.map fun a b hab => (h a b hab).2.1
  have h5' : ∀ i, c + 1 ≤ i → e i = e' i := fun i hi => h5 i (by omega)
  have hx := fun op => BT.Laws.exec_over h (hookProg k op st m (e' c) (ds.map o.name)) cs ds h7
  have hec := h5 c (Nat.le_refl c)
  have fin : ∀ (s : BTState) (m1 : Mem) (cs ds : List N) (l l' : List BT.Call) (t t' : List BT.Ev), Each R cs ds →
      (BT.Node.finishShutdown o ⟨i, nm, k, s, m1, e, c + 1, cs⟩ l t).res = (BT.Node.finishShutdown o ⟨i, nm, k, s, m1, e', c + 1, ds⟩ l' t').res ∧
      Later R (BT.Node.finishShutdown o ⟨i, nm, k, s, m1, e, c + 1, cs⟩ l t).node (BT.Node.finishShutdown o ⟨i, nm, k, s, m1, e', c + 1, ds⟩ l' t').node := by
    intro s m1 cs ds l l' t t' hc
    obtain ⟨s1, s2⟩ := BT.Laws.shutdownAll_over h hc
    unfold BT.Node.finishShutdown
    split
    · dsimp only [BT.Node.wrap]
      rw [s2]
      exact ⟨rfl, ⟨rfl, rfl, rfl, rfl, rfl, rfl, h5', s1⟩⟩
    · exact ⟨rfl, ⟨rfl, rfl, rfl, rfl, rfl, rfl, h5', hc⟩⟩
  have plain : ∀ op, (BT.Node.runPlain o op (e' c) ⟨i, nm, k, st, m, e, c + 1, cs⟩).res = (BT.Node.runPlain o op (e' c) ⟨i, nm, k, st, m, e', c + 1, ds⟩).res ∧
      Later R (BT.Node.runPlain o op (e' c) ⟨i, nm, k, st, m, e, c + 1, cs⟩).node (BT.Node.runPlain o op (e' c) ⟨i, nm, k, st, m, e', c + 1, ds⟩).node := by
    intro op
    unfold BT.Node.runPlain BT.Node.runHook
    dsimp only
    split
    · rw [hn]
      obtain ⟨x1, x2, x3⟩ := hx op
      rw [x1, x2]
      split
      · exact ⟨rfl, ⟨rfl, rfl, rfl, rfl, rfl, rfl, h5', x3⟩⟩
      · split
        · exact ⟨rfl, ⟨rfl, rfl, rfl, rfl, rfl, rfl, h5', x3⟩⟩
        · exact ⟨rfl, ⟨rfl, rfl, rfl, rfl, rfl, rfl, h5', x3⟩⟩
    · exact ⟨rfl, ⟨rfl, rfl, rfl, rfl, rfl, rfl, h5', h7⟩⟩
  show (BT.Node.run o op _).res = (BT.Node.run o op _).res ∧ Later R (BT.Node.run o op _).node (BT.Node.run o op _).node
  unfold BT.Node.run
  dsimp only
  rw [hec]
  cases op with
  | setup => exact plain .setup
  | untick => exact plain .untick
  | reset => exact plain .reset
  | tick =>
    dsimp only
    unfold BT.Node.runTick BT.Node.runHook
    dsimp only
    split
    · split
      · rw [hn]
        obtain ⟨x1, x2, x3⟩ := hx .tick
        rw [x1, x2]
        split
        · exact ⟨rfl, ⟨rfl, rfl, rfl, rfl, rfl, rfl, h5', x3⟩⟩
        · split
          · split
            · exact ⟨rfl, ⟨rfl, rfl, rfl, rfl, rfl, rfl, h5', x3⟩⟩
            · exact ⟨rfl, ⟨rfl, rfl, rfl, rfl, rfl, rfl, h5', x3⟩⟩
          · exact ⟨rfl, ⟨rfl, rfl, rfl, rfl, rfl, rfl, h5', x3⟩⟩
      · exact ⟨rfl, ⟨rfl, rfl, rfl, rfl, rfl, rfl, h5', h7⟩⟩
    · exact ⟨rfl, ⟨rfl, rfl, rfl, rfl, rfl, rfl, h5', h7⟩⟩
  | shutdown =>
    dsimp only
    unfold BT.Node.runShutdown BT.Node.runHook
    dsimp only
    split
    · exact fin _ _ _ _ _ _ _ _ h7
    · rw [hn]
      obtain ⟨x1, x2, x3⟩ := hx .shutdown
      rw [x1, x2]
      split
      · exact ⟨rfl, ⟨rfl, rfl, rfl, rfl, rfl, rfl, h5', x3⟩⟩
      · split
        · exact fin _ _ _ _ _ _ _ _ x3
        · exact ⟨rfl, ⟨rfl, rfl, rfl, rfl, rfl, rfl, h5', x3⟩⟩

theorem Each.symmTrans {N : Type} {L : N → N → Prop} (ht : ∀ a b c, L a b → L b c → L a c) : ∀ {l m k : List N}, Each L l m → Each L m k → Each L l k
  | [], _, _, .nil, .nil => .nil
  | _ :: _, _, _, .cons h1 h2, .cons g1 g2 => .cons (ht _ _ _ h1 g1) (Each.symmTrans ht h2 g2)

theorem later_refl {N : Type} {L : N → N → Prop} (hr : ∀ a, L a a) (a : BT.Node N) : Later L a a :=
  ⟨rfl, rfl, rfl, rfl, rfl, rfl, fun _ _ => rfl, BT.Laws.each_refl hr _⟩

theorem later_trans {N : Type} {L : N → N → Prop} (ht : ∀ a b c, L a b → L b c → L a c) (a b c : BT.Node N) (h : Later L a b) (g : Later L b c) : Later L a c :=
  ⟨h.id.trans g.id, h.name.trans g.name, h.kind.trans g.kind, h.state.trans g.state, h.mem.trans g.mem, h.ctr.trans g.ctr,
    fun i hi => (h.env i hi).trans (g.env i (h.ctr ▸ hi)), Each.symmTrans ht h.children g.children⟩

/-- Two nodes without data of the same classes. -/
structure Kin {N : Type} (K : N → N → Prop) (a b : BT.Node N) : Prop where
  kind : a.kind = b.kind
  children : Each K a.children b.children

/-- Two nodes without data that are in the same state for the same reasons: the answers of the outside world may be different from now on. -/
structure Until {N : Type} (R : N → N → Prop) (a b : BT.Node N) : Prop where
  id : a.id = b.id
  name : a.name = b.name
  kind : a.kind = b.kind
  state : a.state = b.state
  mem : a.mem = b.mem
  ctr : a.ctr = b.ctr
  env : ∀ i, i < a.ctr → a.env i = b.env i
  children : Each R a.children b.children

theorem Each.flip {N M : Type} {K : N → M → Prop} {K' : M → N → Prop} (hs : ∀ a b, K a b → K' b a) : ∀ {l : List N} {m : List M}, Each K l m → Each K' m l
  | [], _, .nil => .nil
  | _ :: _, _, .cons h1 h2 => .cons (hs _ _ h1) (Each.flip hs h2)

theorem Each.mono {N M : Type} {K K' : N → M → Prop} (hs : ∀ a b, K a b → K' a b) : ∀ {l : List N} {m : List M}, Each K l m → Each K' l m
  | [], _, .nil => .nil
  | _ :: _, _, .cons h1 h2 => .cons (hs _ _ h1) (Each.mono hs h2)

/-! ### Backwards: the answers are chosen from the last call to the first -/

/-- Operations with data are matched by operations without: whatever the node without data is to be afterwards (of class `K`), there is one from
which it comes, with the past (`U`) of any matching one. -/
structure Refines {N N' : Type} (o : Ops N) (o' : BT.Ops N') (R : N → N' → Prop) (L K U : N' → N' → Prop) : Prop where
  bisim : Bisim o' o' L
  refl : ∀ b, L b b
  trans : ∀ a b c, L a b → L b c → L a c
  krefl : ∀ b, K b b
  ksymm : ∀ a b, K a b → K b a
  ktrans : ∀ a b c, K a b → K b c → K a c
  urefl : ∀ b, U b b
  kin : ∀ a b, U a b → K a b
  state : ∀ c b, R c b → o.state c = o'.state b
  name : ∀ c b, R c b → o.name c = o'.name b
  mix : ∀ c b b', R c b → R c b' → K b b' → ∃ b0, R c b0 ∧ U b b0 ∧ L b0 b'
  twin : ∀ a c b y, R c b → ∃ b', R (o.run a c y).node b' ∧ K b b'
  back : ∀ a c y b b', R c b → R (o.run a c y).node b' → K b b' → ∃ b0, R c b0 ∧ U b b0 ∧ (o'.run a.op b0).res = (o.run a c y).res ∧ L (o'.run a.op b0).node b'

theorem set_same {A : Type} {l : List A} {i : Nat} {a : A} (h : l[i]? = some a) : l.set i a = l := by
  obtain ⟨h1, rfl⟩ := List.getElem?_eq_some_iff.1 h
  exact List.set_getElem_self h1

theorem mix_all {N N' : Type} {o : Ops N} {o' : BT.Ops N'} {R : N → N' → Prop} {L K U : N' → N' → Prop} (h : Refines o o' R L K U) :
    ∀ {cs : List N} {bs bs' : List N'}, Each R cs bs → Each R cs bs' → Each K bs bs' → ∃ bs0, Each R cs bs0 ∧ Each U bs bs0 ∧ Each L bs0 bs'
  | [], _, _, .nil, .nil, .nil => ⟨[], .nil, .nil, .nil⟩
  | _ :: _, _, _, .cons a1 a2, .cons b1 b2, .cons c1 c2 => by
    obtain ⟨b0, d1, d2, d3⟩ := h.mix _ _ _ a1 b1 c1
    obtain ⟨bs0, e1, e2, e3⟩ := mix_all h a2 b2 c2
    exact ⟨b0 :: bs0, .cons d1 e1, .cons d2 e2, .cons d3 e3⟩

theorem exec_back {N N' : Type} {o : Ops N} {o' : BT.Ops N'} {R : N → N' → Prop} {L K U : N' → N' → Prop} (h : Refines o o' R L K U) (id : Nat) (p : Hook (Mem × S)) :
    ∀ (E : BT.Env → Prop) (q : BT.Env → Prog) (cs : List N) (y : Sys) (bs0 : List N'), Like E p q → Each R cs bs0 →
      (∃ bs, Each R (Values.exec o id p cs y).children bs ∧ Each K bs0 bs) ∧
      ∃ e, E e ∧ ∀ bs', Each R (Values.exec o id p cs y).children bs' → Each K bs0 bs' → ∃ bs, Each R cs bs ∧ Each U bs0 bs ∧
        (BT.exec o' (q e) bs).res = (Values.exec o id p cs y).res ∧
        (BT.exec o' (q e) bs).mem = (Values.exec o id p cs y).mem.1 ∧ Each L (BT.exec o' (q e) bs).children bs' := by
  induction p with
  | done m r =>
    intro E q cs y bs0 hl hc
    obtain ⟨e, he, hq⟩ := hl
    refine ⟨⟨bs0, hc, BT.Laws.each_refl h.krefl _⟩, e, he, fun bs' hb hk => ?_⟩
    obtain ⟨bs, m1, m2, m3⟩ := mix_all h hc hb hk
    refine ⟨bs, m1, m2, ?_⟩
    rw [hq]
    exact ⟨rfl, rfl, m3⟩
  | read k ih =>
    intro E q cs y bs0 hl hc
    exact ih _ E q cs y bs0 (hl _) hc
  | write key v k ih =>
    intro E q cs y bs0 hl hc
    exact ih _ E q cs _ bs0 (hl _) hc
  | peek i k ih =>
    intro E q cs y bs0 hl hc
    obtain ⟨E', k', hE, hk⟩ := hl
    simp only [Values.exec]
    split
    · rename_i hi
      obtain ⟨g1, e, g2, g3⟩ := ih .uninitialized E' (fun e => k' e .uninitialized) cs y bs0 (hk _) hc
      refine ⟨g1, e, (hE e g2).1, fun bs' hb hkin => ?_⟩
      obtain ⟨bs, b1, b0, b2, b3, b4⟩ := g3 bs' hb hkin
      rcases b1.get i with ⟨_, j2⟩ | ⟨a, _, j1, _⟩
      · refine ⟨bs, b1, b0, ?_⟩
        rw [(hE e g2).2]
        simp only [BT.exec, j2]
        exact ⟨b2, b3, b4⟩
      · rw [hi] at j1; cases j1
    · rename_i c hi
      obtain ⟨g1, e, g2, g3⟩ := ih (o.state c) E' (fun e => k' e (o.state c)) cs y bs0 (hk _) hc
      refine ⟨g1, e, (hE e g2).1, fun bs' hb hkin => ?_⟩
      obtain ⟨bs, b1, b0, b2, b3, b4⟩ := g3 bs' hb hkin
      rcases b1.get i with ⟨j1, _⟩ | ⟨a, b, j1, j2, j3⟩
      · rw [hi] at j1; cases j1
      · rw [hi] at j1
        cases j1
        refine ⟨bs, b1, b0, ?_⟩
        rw [(hE e g2).2]
        simp only [BT.exec, j2]
        rw [← h.state _ _ j3]
        exact ⟨b2, b3, b4⟩
  | call a i k ih =>
    intro E q cs y bs0 hl hc
    obtain ⟨E', k', hE, hk⟩ := hl
    simp only [Values.exec]
    split
    · rename_i hi
      obtain ⟨g1, e, g2, g3⟩ := ih .err E' (fun e => k' e .err) cs y bs0 (hk _) hc
      refine ⟨g1, e, (hE e g2).1, fun bs' hb hkin => ?_⟩
      obtain ⟨bs, b1, b0, b2, b3, b4⟩ := g3 bs' hb hkin
      rcases b1.get i with ⟨_, j2⟩ | ⟨a, _, j1, _⟩
      · refine ⟨bs, b1, b0, ?_⟩
        rw [(hE e g2).2]
        simp only [BT.exec, j2]
        exact ⟨b2, b3, b4⟩
      · rw [hi] at j1; cases j1
    · rename_i c hi
      have hc0 : ∃ b0, bs0[i]? = some b0 ∧ R c b0 := by
        rcases hc.get i with ⟨j1, _⟩ | ⟨c', b, j1, j2, j3⟩
        · rw [hi] at j1; cases j1
        · rw [hi] at j1; cases j1; exact ⟨b, j2, j3⟩
      obtain ⟨b0, hi0, hb0⟩ := hc0
      obtain ⟨b1, hb1, hk01⟩ := h.twin a c b0 y hb0
      have back := fun b' => h.back a c y b0 b' hb0
      generalize o.run a c y = out at hb1 back
      have hkset : Each K bs0 (bs0.set i b1) := by
        have := (BT.Laws.each_refl h.krefl bs0).set hk01 i
        rw [set_same hi0] at this
        exact this
      obtain ⟨⟨bsf, f1, f2⟩, e, g2, g3⟩ := ih out.res E' (fun e => k' e out.res) (cs.set i out.node) out.sys (bs0.set i b1) (hk _) (hc.set hb1 i)
      refine ⟨⟨bsf, f1, Each.symmTrans h.ktrans hkset f2⟩, e, (hE e g2).1, fun bs' hb hkin => ?_⟩
      obtain ⟨bs, c1, c0, c2, c3, c4⟩ := g3 bs' hb (Each.symmTrans h.ktrans (Each.flip h.ksymm hkset) hkin)
      have hlt : i < cs.length := (List.getElem?_eq_some_iff.1 hi).1
      have hlt0 : i < bs0.length := (List.getElem?_eq_some_iff.1 hi0).1
      rcases c1.get i with ⟨j1, _⟩ | ⟨c', B1, j1, j2, j3⟩
      · rw [List.getElem?_set, if_pos rfl, if_pos hlt] at j1; cases j1
      · rw [List.getElem?_set, if_pos rfl, if_pos hlt] at j1
        cases j1
        have hU : U b1 B1 := by
          rcases c0.get i with ⟨j1, _⟩ | ⟨c', B, j1, j2', j3⟩
          · rw [List.getElem?_set, if_pos rfl, if_pos hlt0] at j1; cases j1
          · rw [List.getElem?_set, if_pos rfl, if_pos hlt0] at j1
            cases j1
            rw [j2] at j2'
            cases j2'
            exact j3
        obtain ⟨B0, d1, d0, d2, d3⟩ := back B1 j3 (h.ktrans _ _ _ hk01 (h.kin _ _ hU))
        have hlt' : i < bs.length := (List.getElem?_eq_some_iff.1 j2).1
        have hR : Each R cs (bs.set i B0) := by
          have := c1.set d1 i
          rw [List.set_set, set_same hi] at this
          exact this
        have hU' : Each U bs0 (bs.set i B0) := by
          have := c0.set d0 i
          rw [List.set_set, set_same hi0] at this
          exact this
        refine ⟨bs.set i B0, hR, hU', ?_⟩
        rw [(hE e g2).2]
        have hget : (bs.set i B0)[i]? = some B0 := by rw [List.getElem?_set, if_pos rfl, if_pos hlt']
        simp only [BT.exec, hget, List.set_set, d2]
        have hL : Each L (bs.set i (o'.run a.op B0).node) bs := by
          have := (BT.Laws.each_refl h.refl bs).set d3 i
          rw [set_same j2] at this
          exact this
        obtain ⟨x1, x2, x3⟩ := BT.Laws.exec_over h.bisim (k' e out.res) _ _ hL
        exact ⟨x2.trans c2, x1.trans c3, Each.symmTrans h.trans x3 c4⟩

/-! ### Nodes -/

/-- The answers of the outside world: those of `past`, one, those of `env`. -/
def upd (past env : Nat → BT.Env) (c : Nat) (e : BT.Env) : Nat → BT.Env := fun i => if i < c then past i else if i = c then e else env i

theorem upd_same (past env : Nat → BT.Env) (c : Nat) (e : BT.Env) : upd past env c e c = e := by simp [upd]

theorem upd_later (past env : Nat → BT.Env) (c : Nat) (e : BT.Env) (i : Nat) (h : c + 1 ≤ i) : upd past env c e i = env i := by
  rw [upd, if_neg (by omega), if_neg (by omega)]

theorem upd_before (past env : Nat → BT.Env) (c : Nat) (e : BT.Env) (i : Nat) (h : i < c) : upd past env c e i = past i := if_pos h

/-- The hooks do not ask whether inputs are set and whether outputs can be pushed: the methods around them do. -/
theorem hook_flags (k : BT.Kind) (op : Op) (st : BTState) (m : Mem) (e : BT.Env) (names : List Nat) (a b : Bool) :
    hookProg k op st m { e with inputsOk := a, pushOk := b } names = hookProg k op st m e names := by
  cases op <;> cases k <;> rfl

theorem node_refines {N N' : Type} {o : Ops N} {o' : BT.Ops N'} {R : N → N' → Prop} {L K U : N' → N' → Prop} (h : Refines o o' R L K U) :
    Refines (Node.ops (M := Mem × S) o) (BT.Node.ops o') (Twin R) (Later L) (Kin K) (Until U) := by
  refine ⟨later_bisim h.bisim, later_refl h.refl, later_trans h.trans, fun b => ⟨rfl, BT.Laws.each_refl h.krefl _⟩, fun a b k => ⟨k.kind.symm, Each.flip h.ksymm k.children⟩,
    fun a b c k l => ⟨k.kind.trans l.kind, Each.symmTrans h.ktrans k.children l.children⟩, fun b => ⟨rfl, rfl, rfl, rfl, rfl, rfl, fun _ _ => rfl, BT.Laws.each_refl h.urefl _⟩,
    fun a b u => ⟨u.kind, Each.mono h.kin u.children⟩, fun _ _ t => t.state, fun _ _ t => t.name, ?_, ?_, ?_⟩
  · intro nd b b' t t' hk
    obtain ⟨bs, m1, m2, m3⟩ := mix_all h t.children t'.children hk.children
    refine ⟨{ b' with env := fun i => if i < b.ctr then b.env i else b'.env i, children := bs }, ⟨t'.id, t'.name, t'.state, t'.mem, t'.ctr, t'.hook, m1⟩,
      ⟨t.id.symm.trans t'.id, t.name.symm.trans t'.name, hk.kind, t.state.symm.trans t'.state, t.mem.symm.trans t'.mem, t.ctr.symm.trans t'.ctr, fun i hi => (if_pos hi).symm, m2⟩,
      ⟨rfl, rfl, rfl, rfl, rfl, rfl, fun i hi => ?_, m3⟩⟩
    have : b.ctr = b'.ctr := t.ctr.symm.trans t'.ctr
    exact if_neg (by dsimp only at hi; omega)
  · intro a nd b y t
    have key : ∀ (y1 : Sys) (s : BTState), ∃ b', Twin R (nd.after (Values.exec o nd.id (nd.body o a) nd.children y1) s) b' ∧ Kin K b b' := by
      intro y1 s
      obtain ⟨⟨bs, hbs, hks⟩, _⟩ := exec_back h nd.id (nd.body o a) (fun _ => True) (fun e => hookProg b.kind a.op nd.state nd.mem.1 e (nd.children.map o.name))
        nd.children y1 b.children (t.hook _ _ _ _ _) t.children
      refine ⟨{ b with state := s, mem := (Values.exec o nd.id (nd.body o a) nd.children y1).mem.1, ctr := b.ctr + 1, children := bs }, ?_, rfl, hks⟩
      exact ⟨t.id, t.name, rfl, rfl, congrArg (· + 1) t.ctr, t.hook, hbs⟩
    have skip : ∀ s, ∃ b', Twin R (nd.skip s) b' ∧ Kin K b b' := fun s =>
      ⟨{ b with state := s, ctr := b.ctr + 1 }, ⟨t.id, t.name, rfl, t.mem, congrArg (· + 1) t.ctr, t.hook, t.children⟩, rfl, BT.Laws.each_refl h.krefl _⟩
    cases a with
    | tick =>
      show ∃ b', Twin R (Node.tick o nd y).node b' ∧ Kin K b b'
      unfold Node.tick
      split
      · dsimp only
        split
        · split
          · exact key _ _
          · split
            · split <;> exact key _ _
            · exact key _ _
        · exact skip _
      · exact skip _
    | untick =>
      show ∃ b', Twin R (Node.untick o nd y).node b' ∧ Kin K b b'
      unfold Node.untick
      split
      · dsimp only
        split
        · exact key _ _
        · split <;> exact key _ _
      · exact skip _
    | reset =>
      show ∃ b', Twin R (Node.reset o nd y).node b' ∧ Kin K b b'
      unfold Node.reset
      split
      · dsimp only
        split <;> exact key _ _
      · exact skip _
  · intro a nd y b b' t t0 hkin
    revert t0
    -- no hook
    have skip : ∀ (s : BTState) (e : BT.Env), Twin R (nd.skip s) b' → ∃ bs,
        let b0 : BT.Node N' := { b' with state := nd.state, ctr := nd.ctr, env := upd b.env b'.env nd.ctr e, children := bs }
        Twin R nd b0 ∧ Until U b b0 ∧ Later L { b0 with state := s, ctr := nd.ctr + 1 } b' := by
      intro s e t'
      obtain ⟨bs, m1, m2, m3⟩ := mix_all h t.children t'.children hkin.children
      refine ⟨bs, ⟨t'.id, t'.name, rfl, t'.mem, rfl, t'.hook, m1⟩, ⟨t.id.symm.trans t'.id, t.name.symm.trans t'.name, hkin.kind, t.state.symm, t.mem.symm.trans t'.mem, t.ctr.symm,
        fun i hi => (upd_before _ _ _ _ _ (t.ctr ▸ hi)).symm, m2⟩, ⟨rfl, rfl, rfl, t'.state, rfl, t'.ctr, ?_, m3⟩⟩
      exact fun i hi => upd_later _ _ _ _ _ hi
    -- a hook
    have key : ∀ (y1 : Sys) (s : BTState) (p : Bool), Twin R (nd.after (Values.exec o nd.id (nd.body o a) nd.children y1) s) b' →
        ∃ b0 : BT.Node N', Twin R nd b0 ∧ Until U b b0 ∧ (b0.env b0.ctr).inputsOk = true ∧ (b0.env b0.ctr).pushOk = p ∧ b0.state = nd.state ∧
          let x := BT.exec o' (hookProg b0.kind a.op b0.state b0.mem (b0.env b0.ctr) (b0.children.map o'.name)) b0.children
          x.res = (Values.exec o nd.id (nd.body o a) nd.children y1).res ∧
          Later L { b0 with state := s, mem := x.mem, ctr := b0.ctr + 1, children := x.children } b' := by
      intro y1 s p t'
      have hk : Like (fun _ => True) (nd.body o a) (fun e => hookProg b'.kind a.op nd.state nd.mem.1 e (nd.children.map o.name)) := t'.hook _ _ _ _ _
      obtain ⟨_, e, _, g⟩ := exec_back h nd.id (nd.body o a) (fun _ => True) _ nd.children y1 b.children hk t.children
      obtain ⟨bs, g1, g0, g2, g3, g4⟩ := g b'.children t'.children hkin.children
      have hn : nd.children.map o.name = bs.map o'.name := g1.map fun c b hcb => h.name c b hcb
      refine ⟨{ b' with state := nd.state, mem := nd.mem.1, ctr := nd.ctr, env := upd b.env b'.env nd.ctr { e with inputsOk := true, pushOk := p }, children := bs },
        ⟨t'.id, t'.name, rfl, rfl, rfl, t'.hook, g1⟩, ⟨t.id.symm.trans t'.id, t.name.symm.trans t'.name, hkin.kind, t.state.symm, t.mem.symm, t.ctr.symm,
        fun i hi => (upd_before _ _ _ _ _ (t.ctr ▸ hi)).symm, g0⟩, ?_⟩
      dsimp only
      rw [upd_same, hook_flags, ← hn]
      refine ⟨rfl, rfl, rfl, g2, ⟨rfl, rfl, rfl, t'.state, g3.trans t'.mem, t'.ctr, fun i hi => upd_later _ _ _ _ _ hi, g4⟩⟩
    cases a with
    | tick =>
      show Twin R (Node.tick o nd y).node b' → ∃ b0, Twin R nd b0 ∧ Until U b b0 ∧ (BT.Node.run o' .tick b0).res = (Node.tick o nd y).res ∧ Later L (BT.Node.run o' .tick b0).node b'
      unfold Node.tick
      split
      · rename_i hacc
        dsimp only
        split
        · have use : ∀ (y1 : Sys) (s : BTState) (p : Bool) (r : Res), Twin R (nd.after (Values.exec o nd.id (nd.body o .tick) nd.children y1) s) b' →
              (match (Values.exec o nd.id (nd.body o .tick) nd.children y1).res with
                | .err => s = .broken ∧ r = .err
                | .ok s' => if BT.allowedAfter .tick s' then (if p then s = s' ∧ r = .ok s' else s = .broken ∧ r = .err) else s = s' ∧ r = .err) →
              ∃ b0, Twin R nd b0 ∧ Until U b b0 ∧ (BT.Node.run o' .tick b0).res = r ∧ Later L (BT.Node.run o' .tick b0).node b' := by
            intro y1 s p r t' hr
            obtain ⟨b0, k1, k0, k2, k3, k4, k5, k6⟩ := key y1 s p t'
            refine ⟨b0, k1, k0, ?_⟩
            unfold BT.Node.run BT.Node.runTick BT.Node.runHook
            dsimp only
            rw [if_pos (by rw [k4]; exact hacc), if_pos k2, k3]
            generalize (Values.exec o nd.id (nd.body o .tick) nd.children y1).res = res at hr k5
            simp only [Act.op] at k5 k6
            rw [k5]
            cases res with
            | err => obtain ⟨rfl, rfl⟩ := hr; exact ⟨rfl, k6⟩
            | ok s' =>
              dsimp only at hr ⊢
              split at hr
              · rename_i hal
                rw [if_pos hal]
                split at hr
                · rename_i hp
                  rw [if_pos hp]
                  obtain ⟨rfl, rfl⟩ := hr; exact ⟨rfl, k6⟩
                · rename_i hp
                  rw [if_neg hp]
                  obtain ⟨rfl, rfl⟩ := hr; exact ⟨rfl, k6⟩
              · rename_i hal
                rw [if_neg hal]
                obtain ⟨rfl, rfl⟩ := hr; exact ⟨rfl, k6⟩
          split
          · rename_i hx
            exact fun t' => use _ _ true _ t' (by rw [hx]; exact ⟨rfl, rfl⟩)
          · rename_i s hx
            split
            · rename_i hal
              split
              · exact fun t' => use _ _ true _ t' (by rw [hx]; dsimp only; rw [if_pos hal]; exact ⟨rfl, rfl⟩)
              · exact fun t' => use _ _ false _ t' (by rw [hx]; dsimp only; rw [if_pos hal]; exact ⟨rfl, rfl⟩)
            · rename_i hal
              exact fun t' => use _ _ true _ t' (by rw [hx]; dsimp only; rw [if_neg hal]; exact ⟨rfl, rfl⟩)
        · intro t'
          obtain ⟨bs, k1, k0, k2⟩ := skip .broken { inputsOk := false } t'
          refine ⟨_, k1, k0, ?_⟩
          unfold BT.Node.run BT.Node.runTick
          dsimp only
          rw [if_pos hacc, upd_same]
          exact ⟨rfl, k2⟩
      · rename_i hacc
        intro t'
        obtain ⟨bs, k1, k0, k2⟩ := skip nd.state {} t'
        refine ⟨_, k1, k0, ?_⟩
        unfold BT.Node.run BT.Node.runTick
        dsimp only
        rw [if_neg hacc]
        exact ⟨rfl, k2⟩
    | untick =>
      show Twin R (Node.untick o nd y).node b' → ∃ b0, Twin R nd b0 ∧ Until U b b0 ∧ (BT.Node.run o' .untick b0).res = (Node.untick o nd y).res ∧ Later L (BT.Node.run o' .untick b0).node b'
      unfold Node.untick
      split
      · rename_i hacc
        have use : ∀ (y1 : Sys) (s : BTState) (r : Res), Twin R (nd.after (Values.exec o nd.id (nd.body o .untick) nd.children y1) s) b' →
            (match (Values.exec o nd.id (nd.body o .untick) nd.children y1).res with
              | .err => s = .broken ∧ r = .err
              | .ok s' => if BT.allowedAfter .untick s' then s = s' ∧ r = .ok s' else s = s' ∧ r = .err) →
            ∃ b0, Twin R nd b0 ∧ Until U b b0 ∧ (BT.Node.run o' .untick b0).res = r ∧ Later L (BT.Node.run o' .untick b0).node b' := by
          intro y1 s r t' hr
          obtain ⟨b0, k1, k0, k2, k3, k4, k5, k6⟩ := key y1 s true t'
          refine ⟨b0, k1, k0, ?_⟩
          unfold BT.Node.run
          dsimp only
          unfold BT.Node.runPlain BT.Node.runHook
          dsimp only
          rw [if_pos (by rw [k4]; exact hacc)]
          generalize (Values.exec o nd.id (nd.body o .untick) nd.children y1).res = res at hr k5
          simp only [Act.op] at k5 k6
          rw [k5]
          cases res with
          | err => obtain ⟨rfl, rfl⟩ := hr; exact ⟨rfl, k6⟩
          | ok s' =>
            dsimp only at hr ⊢
            split at hr
            · rename_i hal
              rw [if_pos hal]
              obtain ⟨rfl, rfl⟩ := hr; exact ⟨rfl, k6⟩
            · rename_i hal
              rw [if_neg hal]
              obtain ⟨rfl, rfl⟩ := hr; exact ⟨rfl, k6⟩
        dsimp only
        split
        · rename_i hx
          exact fun t' => use _ _ _ t' (by rw [hx]; exact ⟨rfl, rfl⟩)
        · rename_i s hx
          split
          · rename_i hal
            exact fun t' => use _ _ _ t' (by rw [hx]; dsimp only; rw [if_pos hal]; exact ⟨rfl, rfl⟩)
          · rename_i hal
            exact fun t' => use _ _ _ t' (by rw [hx]; dsimp only; rw [if_neg hal]; exact ⟨rfl, rfl⟩)
      · rename_i hacc
        intro t'
        obtain ⟨bs, k1, k0, k2⟩ := skip nd.state {} t'
        refine ⟨_, k1, k0, ?_⟩
        unfold BT.Node.run BT.Node.runPlain
        dsimp only
        rw [if_neg hacc]
        exact ⟨rfl, k2⟩
    | reset =>
      show Twin R (Node.reset o nd y).node b' → ∃ b0, Twin R nd b0 ∧ Until U b b0 ∧ (BT.Node.run o' .reset b0).res = (Node.reset o nd y).res ∧ Later L (BT.Node.run o' .reset b0).node b'
      unfold Node.reset
      split
      · rename_i hacc
        have use : ∀ (y1 : Sys) (s : BTState) (r : Res), Twin R (nd.after (Values.exec o nd.id (nd.body o .reset) nd.children y1) s) b' →
            (match (Values.exec o nd.id (nd.body o .reset) nd.children y1).res with
              | .err => s = .broken ∧ r = .err
              | .ok s' => if BT.allowedAfter .reset s' then s = s' ∧ r = .ok s' else s = s' ∧ r = .err) →
            ∃ b0, Twin R nd b0 ∧ Until U b b0 ∧ (BT.Node.run o' .reset b0).res = r ∧ Later L (BT.Node.run o' .reset b0).node b' := by
          intro y1 s r t' hr
          obtain ⟨b0, k1, k0, k2, k3, k4, k5, k6⟩ := key y1 s true t'
          refine ⟨b0, k1, k0, ?_⟩
          unfold BT.Node.run
          dsimp only
          unfold BT.Node.runPlain BT.Node.runHook
          dsimp only
          rw [if_pos (by rw [k4]; exact hacc)]
          generalize (Values.exec o nd.id (nd.body o .reset) nd.children y1).res = res at hr k5
          simp only [Act.op] at k5 k6
          rw [k5]
          cases res with
          | err => obtain ⟨rfl, rfl⟩ := hr; exact ⟨rfl, k6⟩
          | ok s' =>
            dsimp only at hr ⊢
            split at hr
            · rename_i hal
              rw [if_pos hal]
              obtain ⟨rfl, rfl⟩ := hr; exact ⟨rfl, k6⟩
            · rename_i hal
              rw [if_neg hal]
              obtain ⟨rfl, rfl⟩ := hr; exact ⟨rfl, k6⟩
        dsimp only
        split
        · rename_i hx
          exact fun t' => use _ _ _ t' (by rw [hx]; exact ⟨rfl, rfl⟩)
        · rename_i s hx
          refine fun t' => use _ _ _ t' ?_
          rw [hx]
          dsimp only
          split <;> exact ⟨rfl, rfl⟩
      · rename_i hacc
        intro t'
        obtain ⟨bs, k1, k0, k2⟩ := skip nd.state {} t'
        refine ⟨_, k1, k0, ?_⟩
        unfold BT.Node.run BT.Node.runPlain
        dsimp only
        rw [if_neg hacc]
        exact ⟨rfl, k2⟩

/-! ### Other answers in the future do not change the past -/

/-- Whatever of the future is to be different afterwards can be different from the start. -/
def Grafts {N : Type} (o : BT.Ops N) (U : N → N → Prop) : Prop :=
  ∀ op a b', U (o.run op a).node b' → ∃ b, U a b ∧ (o.run op b).node = b' ∧ (o.run op b).res = (o.run op a).res

theorem exec_graft {N : Type} {o : BT.Ops N} {U : N → N → Prop} (h : Grafts o U) (hs : ∀ a b, U a b → o.state a = o.state b) (p : Prog) :
    ∀ cs bs', Each U (BT.exec o p cs).children bs' → ∃ bs, Each U cs bs ∧ (BT.exec o p bs).children = bs' ∧ (BT.exec o p bs).mem = (BT.exec o p cs).mem ∧
      (BT.exec o p bs).res = (BT.exec o p cs).res := by
  induction p with
  | done m r => exact fun cs bs' h => ⟨bs', h, rfl, rfl, rfl⟩
  | peek i k ih =>
    intro cs bs'
    simp only [BT.exec]
    split
    · rename_i hi
      intro hb
      obtain ⟨bs, b1, b2⟩ := ih _ cs bs' hb
      refine ⟨bs, b1, ?_⟩
      rcases b1.get i with ⟨_, j2⟩ | ⟨a, _, j1, _⟩
      · rw [j2]; exact b2
      · rw [hi] at j1; cases j1
    · rename_i c hi
      intro hb
      obtain ⟨bs, b1, b2⟩ := ih _ cs bs' hb
      refine ⟨bs, b1, ?_⟩
      rcases b1.get i with ⟨j1, _⟩ | ⟨a, b, j1, j2, j3⟩
      · rw [hi] at j1; cases j1
      · rw [hi] at j1
        cases j1
        rw [j2]
        dsimp only
        rw [← hs _ _ j3]
        exact b2
  | call op i k ih =>
    intro cs bs'
    simp only [BT.exec]
    split
    · rename_i hi
      intro hb
      obtain ⟨bs, b1, b2⟩ := ih _ cs bs' hb
      refine ⟨bs, b1, ?_⟩
      rcases b1.get i with ⟨_, j2⟩ | ⟨a, _, j1, _⟩
      · rw [j2]; exact b2
      · rw [hi] at j1; cases j1
    · rename_i c hi
      intro hb
      obtain ⟨bs, b1, b2⟩ := ih (o.run op c).res (cs.set i (o.run op c).node) bs' hb
      have hlt : i < cs.length := (List.getElem?_eq_some_iff.1 hi).1
      rcases b1.get i with ⟨j1, _⟩ | ⟨a, B1, j1, j2, j3⟩
      · rw [List.getElem?_set, if_pos rfl, if_pos hlt] at j1; cases j1
      · rw [List.getElem?_set, if_pos rfl, if_pos hlt] at j1
        cases j1
        obtain ⟨B0, d1, d2, d3⟩ := h op c B1 j3
        have hlt' : i < bs.length := (List.getElem?_eq_some_iff.1 j2).1
        have hU : Each U cs (bs.set i B0) := by
          have := b1.set d1 i
          rw [List.set_set, set_same hi] at this
          exact this
        refine ⟨bs.set i B0, hU, ?_⟩
        have hget : (bs.set i B0)[i]? = some B0 := by rw [List.getElem?_set, if_pos rfl, if_pos hlt']
        rw [hget]
        dsimp only
        rw [d2, d3, List.set_set, set_same j2]
        exact b2

theorem shutdown_graft {N : Type} {o : BT.Ops N} {U : N → N → Prop} (h : Grafts o U) :
    ∀ cs bs', Each U (BT.shutdownAll o cs).1 bs' → ∃ bs, Each U cs bs ∧ (BT.shutdownAll o bs).1 = bs' ∧ (BT.shutdownAll o bs).2.1 = (BT.shutdownAll o cs).2.1
  | [], _, .nil => ⟨[], .nil, rfl, rfl⟩
  | _ :: _, _, .cons h1 h2 => by
    obtain ⟨b, d1, d2, d3⟩ := h _ _ _ h1
    obtain ⟨bs, e1, e2, e3⟩ := shutdown_graft h _ _ h2
    exact ⟨b :: bs, .cons d1 e1, (by simp only [BT.shutdownAll, d2, e2]), (by simp only [BT.shutdownAll, d3, e3])⟩

theorem node_grafts {N : Type} {o : BT.Ops N} {U : N → N → Prop} (h : Grafts o U) (hs : ∀ a b, U a b → o.state a = o.state b) (hname : ∀ a b, U a b → o.name a = o.name b) :
    Grafts (BT.Node.ops o) (Until U) := by
  intro op a b'
  show Until U (BT.Node.run o op a).node b' → ∃ b, Until U a b ∧ (BT.Node.run o op b).node = b' ∧ (BT.Node.run o op b).res = (BT.Node.run o op a).res
  obtain ⟨i, nm, k, st, m, e, c, cs⟩ := a
  obtain ⟨i', nm', k', st', m', e', c', ds⟩ := b'
  have start : ∀ (st1 : BTState) (m1 : Mem) (cs1 : List N), Until U ⟨i, nm, k, st1, m1, e, c + 1, cs1⟩ ⟨i', nm', k', st', m', e', c', ds⟩ →
      i = i' ∧ nm = nm' ∧ k = k' ∧ st1 = st' ∧ m1 = m' ∧ c + 1 = c' ∧ e c = e' c ∧ (∀ j, j < c → e j = e' j) ∧ Each U cs1 ds := by
    intro st1 m1 cs1 u
    exact ⟨u.id, u.name, u.kind, u.state, u.mem, u.ctr, u.env c (by dsimp only; omega), fun j hj => u.env j (by dsimp only; omega), u.children⟩
  have hook : ∀ op ds, Each U (BT.exec o (hookProg k op st m (e c) (cs.map o.name)) cs).children ds → e c = e' c → ∃ bs, Each U cs bs ∧
      (BT.exec o (hookProg k op st m (e' c) (bs.map o.name)) bs).children = ds ∧
      (BT.exec o (hookProg k op st m (e' c) (bs.map o.name)) bs).mem = (BT.exec o (hookProg k op st m (e c) (cs.map o.name)) cs).mem ∧
      (BT.exec o (hookProg k op st m (e' c) (bs.map o.name)) bs).res = (BT.exec o (hookProg k op st m (e c) (cs.map o.name)) cs).res := by
    intro op ds hd he
    obtain ⟨bs, b1, b2⟩ := exec_graft h hs _ cs ds hd
    refine ⟨bs, b1, ?_⟩
    rw [← he, ← b1.map (fun a b hab => hname a b hab)]
    exact b2
  -- the node from which it comes
  have done : ∀ (P : List N → Prop), (∀ j, j < c → e j = e' j) → (∃ bs, Each U cs bs ∧ P bs) → ∃ bs, Until U ⟨i, nm, k, st, m, e, c, cs⟩ ⟨i, nm, k, st, m, e', c, bs⟩ ∧ P bs :=
    fun P hj ⟨bs, b1, b2⟩ => ⟨bs, ⟨rfl, rfl, rfl, rfl, rfl, rfl, hj, b1⟩, b2⟩
  have plain : ∀ op, Until U (BT.Node.runPlain o op (e c) ⟨i, nm, k, st, m, e, c + 1, cs⟩).node ⟨i', nm', k', st', m', e', c', ds⟩ →
      ∃ bs, Until U ⟨i, nm, k, st, m, e, c, cs⟩ ⟨i, nm, k, st, m, e', c, bs⟩ ∧
        (BT.Node.runPlain o op (e' c) ⟨i, nm, k, st, m, e', c + 1, bs⟩).node = ⟨i', nm', k', st', m', e', c', ds⟩ ∧
        (BT.Node.runPlain o op (e' c) ⟨i, nm, k, st, m, e', c + 1, bs⟩).res = (BT.Node.runPlain o op (e c) ⟨i, nm, k, st, m, e, c + 1, cs⟩).res := by
    intro op
    unfold BT.Node.runPlain BT.Node.runHook
    dsimp only
    by_cases hacc : BT.accepts op st
    · simp only [if_pos hacc]
      split
      · rename_i hx
        intro u
        obtain ⟨rfl, rfl, rfl, rfl, rfl, rfl, u1, u2, u3⟩ := start _ _ _ u
        refine done _ u2 ?_
        obtain ⟨bs, b1, b2, b3, b4⟩ := hook op ds u3 u1
        refine ⟨bs, b1, ?_⟩
        rw [b4, hx, b2, b3]
        exact ⟨rfl, rfl⟩
      · rename_i s hx
        split
        · rename_i hal
          intro u
          obtain ⟨rfl, rfl, rfl, rfl, rfl, rfl, u1, u2, u3⟩ := start _ _ _ u
          refine done _ u2 ?_
          obtain ⟨bs, b1, b2, b3, b4⟩ := hook op ds u3 u1
          refine ⟨bs, b1, ?_⟩
          rw [b4, hx, b2, b3]
          dsimp only
          rw [if_pos hal]
          exact ⟨rfl, rfl⟩
        · rename_i hal
          intro u
          obtain ⟨rfl, rfl, rfl, rfl, rfl, rfl, u1, u2, u3⟩ := start _ _ _ u
          refine done _ u2 ?_
          obtain ⟨bs, b1, b2, b3, b4⟩ := hook op ds u3 u1
          refine ⟨bs, b1, ?_⟩
          rw [b4, hx, b2, b3]
          dsimp only
          rw [if_neg hal]
          exact ⟨rfl, rfl⟩
    · simp only [if_neg hacc]
      intro u
      obtain ⟨rfl, rfl, rfl, rfl, rfl, rfl, u1, u2, u3⟩ := start _ _ _ u
      exact done _ u2 ⟨ds, u3, rfl, rfl⟩
  have tick : Until U (BT.Node.runTick o (e c) ⟨i, nm, k, st, m, e, c + 1, cs⟩).node ⟨i', nm', k', st', m', e', c', ds⟩ →
      ∃ bs, Until U ⟨i, nm, k, st, m, e, c, cs⟩ ⟨i, nm, k, st, m, e', c, bs⟩ ∧
        (BT.Node.runTick o (e' c) ⟨i, nm, k, st, m, e', c + 1, bs⟩).node = ⟨i', nm', k', st', m', e', c', ds⟩ ∧
        (BT.Node.runTick o (e' c) ⟨i, nm, k, st, m, e', c + 1, bs⟩).res = (BT.Node.runTick o (e c) ⟨i, nm, k, st, m, e, c + 1, cs⟩).res := by
    unfold BT.Node.runTick BT.Node.runHook
    dsimp only
    by_cases hacc : BT.accepts .tick st
    · simp only [if_pos hacc]
      split
      · rename_i hin
        split
        · rename_i hx
          intro u
          obtain ⟨rfl, rfl, rfl, rfl, rfl, rfl, u1, u2, u3⟩ := start _ _ _ u
          refine done _ u2 ?_
          obtain ⟨bs, b1, b2, b3, b4⟩ := hook .tick ds u3 u1
          refine ⟨bs, b1, ?_⟩
          rw [if_pos (by rw [← u1]; exact hin), b4, hx, b2, b3]
          exact ⟨rfl, rfl⟩
        · rename_i s hx
          split
          · rename_i hal
            split
            · rename_i hp
              intro u
              obtain ⟨rfl, rfl, rfl, rfl, rfl, rfl, u1, u2, u3⟩ := start _ _ _ u
              refine done _ u2 ?_
              obtain ⟨bs, b1, b2, b3, b4⟩ := hook .tick ds u3 u1
              refine ⟨bs, b1, ?_⟩
              rw [if_pos (by rw [← u1]; exact hin), b4, hx, b2, b3]
              dsimp only
              rw [if_pos hal, if_pos (by rw [← u1]; exact hp)]
              exact ⟨rfl, rfl⟩
            · rename_i hp
              intro u
              obtain ⟨rfl, rfl, rfl, rfl, rfl, rfl, u1, u2, u3⟩ := start _ _ _ u
              refine done _ u2 ?_
              obtain ⟨bs, b1, b2, b3, b4⟩ := hook .tick ds u3 u1
              refine ⟨bs, b1, ?_⟩
              rw [if_pos (by rw [← u1]; exact hin), b4, hx, b2, b3]
              dsimp only
              rw [if_pos hal, if_neg (by rw [← u1]; exact hp)]
              exact ⟨rfl, rfl⟩
          · rename_i hal
            intro u
            obtain ⟨rfl, rfl, rfl, rfl, rfl, rfl, u1, u2, u3⟩ := start _ _ _ u
            refine done _ u2 ?_
            obtain ⟨bs, b1, b2, b3, b4⟩ := hook .tick ds u3 u1
            refine ⟨bs, b1, ?_⟩
            rw [if_pos (by rw [← u1]; exact hin), b4, hx, b2, b3]
            dsimp only
            rw [if_neg hal]
            exact ⟨rfl, rfl⟩
      · rename_i hin
        intro u
        obtain ⟨rfl, rfl, rfl, rfl, rfl, rfl, u1, u2, u3⟩ := start _ _ _ u
        refine done _ u2 ⟨ds, u3, ?_⟩
        rw [if_neg (by rw [← u1]; exact hin)]
        exact ⟨rfl, rfl⟩
    · simp only [if_neg hacc]
      intro u
      obtain ⟨rfl, rfl, rfl, rfl, rfl, rfl, u1, u2, u3⟩ := start _ _ _ u
      exact done _ u2 ⟨ds, u3, rfl, rfl⟩
  have shut : Until U (BT.Node.runShutdown o (e c) ⟨i, nm, k, st, m, e, c + 1, cs⟩).node ⟨i', nm', k', st', m', e', c', ds⟩ →
      ∃ bs, Until U ⟨i, nm, k, st, m, e, c, cs⟩ ⟨i, nm, k, st, m, e', c, bs⟩ ∧
        (BT.Node.runShutdown o (e' c) ⟨i, nm, k, st, m, e', c + 1, bs⟩).node = ⟨i', nm', k', st', m', e', c', ds⟩ ∧
        (BT.Node.runShutdown o (e' c) ⟨i, nm, k, st, m, e', c + 1, bs⟩).res = (BT.Node.runShutdown o (e c) ⟨i, nm, k, st, m, e, c + 1, cs⟩).res := by
    -- the children are shut down at the end
    have fin : ∀ (st1 : BTState) (m1 : Mem) (cs1 : List N) (l : List BT.Call) (t : List BT.Ev),
        Until U (BT.Node.finishShutdown o ⟨i, nm, k, st1, m1, e, c + 1, cs1⟩ l t).node ⟨i', nm', k', st', m', e', c', ds⟩ →
        e c = e' c ∧ (∀ j, j < c → e j = e' j) ∧ ∃ bs1, Each U cs1 bs1 ∧ ∀ l' t',
          (BT.Node.finishShutdown o ⟨i, nm, k, st1, m1, e', c + 1, bs1⟩ l' t').node = ⟨i', nm', k', st', m', e', c', ds⟩ ∧
          (BT.Node.finishShutdown o ⟨i, nm, k, st1, m1, e', c + 1, bs1⟩ l' t').res = (BT.Node.finishShutdown o ⟨i, nm, k, st1, m1, e, c + 1, cs1⟩ l t).res := by
      intro st1 m1 cs1 l t
      unfold BT.Node.finishShutdown
      dsimp only
      split
      · intro u
        obtain ⟨rfl, rfl, rfl, rfl, rfl, rfl, u1, u2, u3⟩ := start _ _ _ u
        obtain ⟨bs, b1, b2, b3⟩ := shutdown_graft h _ _ u3
        refine ⟨u1, u2, bs, b1, fun l' t' => ?_⟩
        simp only [BT.Node.wrap, b2, b3, and_self]
      · intro u
        obtain ⟨rfl, rfl, rfl, rfl, rfl, rfl, u1, u2, u3⟩ := start _ _ _ u
        exact ⟨u1, u2, ds, u3, fun l' t' => ⟨rfl, rfl⟩⟩
    unfold BT.Node.runShutdown BT.Node.runHook
    dsimp only
    split
    · intro u
      obtain ⟨u1, u2, bs, b1, b2⟩ := fin _ _ _ _ _ u
      exact done _ u2 ⟨bs, b1, b2 _ _⟩
    · split
      · rename_i hx
        intro u
        obtain ⟨rfl, rfl, rfl, rfl, rfl, rfl, u1, u2, u3⟩ := start _ _ _ u
        refine done _ u2 ?_
        obtain ⟨bs, b1, b2, b3, b4⟩ := hook .shutdown ds u3 u1
        refine ⟨bs, b1, ?_⟩
        rw [b4, hx, b2, b3]
        exact ⟨rfl, rfl⟩
      · rename_i s hx
        split
        · rename_i hal
          intro u
          obtain ⟨u1, u2, bs1, c1, c2⟩ := fin _ _ _ _ _ u
          refine done _ u2 ?_
          obtain ⟨bs, b1, b2, b3, b4⟩ := hook .shutdown bs1 c1 u1
          refine ⟨bs, b1, ?_⟩
          rw [b4, hx]
          dsimp only
          rw [if_pos hal, b2, b3]
          exact c2 _ _
        · rename_i hal
          intro u
          obtain ⟨rfl, rfl, rfl, rfl, rfl, rfl, u1, u2, u3⟩ := start _ _ _ u
          refine done _ u2 ?_
          obtain ⟨bs, b1, b2, b3, b4⟩ := hook .shutdown ds u3 u1
          refine ⟨bs, b1, ?_⟩
          rw [b4, hx]
          dsimp only
          rw [if_neg hal, b2, b3]
          exact ⟨rfl, rfl⟩
  unfold BT.Node.run
  dsimp only
  cases op with
  | setup => exact fun u => let ⟨_, b1, b2⟩ := plain .setup u; ⟨_, b1, b2⟩
  | untick => exact fun u => let ⟨_, b1, b2⟩ := plain .untick u; ⟨_, b1, b2⟩
  | reset => exact fun u => let ⟨_, b1, b2⟩ := plain .reset u; ⟨_, b1, b2⟩
  | tick => exact fun u => let ⟨_, b1, b2⟩ := tick u; ⟨_, b1, b2⟩
  | shutdown => exact fun u => let ⟨_, b1, b2⟩ := shut u; ⟨_, b1, b2⟩

/-! ### Trees -/

/-- A tree with data and one without: the same nodes of the same classes in the same states. -/
def Alike : (n : Nat) → Tree (Mem × S) n → BT.Tree n → Prop
  | 0, t, _ => Empty.elim t
  | n + 1, (t : Node (Mem × S) (Tree (Mem × S) n)), (b : BT.Node (BT.Tree n)) => Twin (Alike n) t b

/-- `Later` for trees. -/
def LaterT : (n : Nat) → BT.Tree n → BT.Tree n → Prop
  | 0, t, _ => Empty.elim t
  | n + 1, (a : BT.Node (BT.Tree n)), (b : BT.Node (BT.Tree n)) => Later (LaterT n) a b

/-- `Kin` for trees. -/
def KinT : (n : Nat) → BT.Tree n → BT.Tree n → Prop
  | 0, t, _ => Empty.elim t
  | n + 1, (a : BT.Node (BT.Tree n)), (b : BT.Node (BT.Tree n)) => Kin (KinT n) a b

/-- Two trees without data that differ in the answers of the outside world from now on only. -/
def UntilT : (n : Nat) → BT.Tree n → BT.Tree n → Prop
  | 0, t, _ => Empty.elim t
  | n + 1, (a : BT.Node (BT.Tree n)), (b : BT.Node (BT.Tree n)) => Until (UntilT n) a b

theorem tree_refines (n : Nat) : Refines (Values.ops (Mem × S) n) (BT.ops n) (Alike n) (LaterT n) (KinT n) (UntilT n) := by
  induction n with
  | zero =>
    exact ⟨fun a => Empty.elim a, fun a => Empty.elim a, fun a => Empty.elim a, fun a => Empty.elim a, fun a => Empty.elim a, fun a => Empty.elim a, fun a => Empty.elim a,
      fun a => Empty.elim a, fun a => Empty.elim a, fun a => Empty.elim a, fun a => Empty.elim a, fun _ a => Empty.elim a, fun _ a => Empty.elim a⟩
  | succ n ih => exact node_refines ih

theorem until_state (n : Nat) (a b : BT.Tree n) (h : UntilT n a b) : (BT.ops n).state a = (BT.ops n).state b := by
  cases n with
  | zero => exact Empty.elim a
  | succ n => exact h.state

theorem until_name (n : Nat) (a b : BT.Tree n) (h : UntilT n a b) : (BT.ops n).name a = (BT.ops n).name b := by
  cases n with
  | zero => exact Empty.elim a
  | succ n => exact h.name

theorem tree_grafts (n : Nat) : Grafts (BT.ops n) (UntilT n) := by
  induction n with
  | zero => exact fun _ a => Empty.elim a
  | succ n ih => exact node_grafts ih (until_state n) (until_name n)

theorem each_flatMap {N M A : Type} {R : N → M → Prop} {f : N → List A} {g : M → List A} (h : ∀ a b, R a b → f a = g b) : ∀ {l : List N} {m : List M}, Each R l m → l.flatMap f = m.flatMap g
  | [], _, .nil => rfl
  | _ :: _, _, .cons h1 h2 => by rw [List.flatMap_cons, List.flatMap_cons, h _ _ h1, each_flatMap h h2]

theorem alike_states (n : Nat) : ∀ (t : Tree (Mem × S) n) (b : BT.Tree n), Alike n t b → states n t = BT.nodeStates n b := by
  induction n with
  | zero => exact fun t => Empty.elim t
  | succ n ih =>
    intro t b h
    have h : Twin (Alike n) t b := h
    simp only [states, BT.nodeStates]
    rw [h.id, h.state, each_flatMap ih h.children]

theorem later_states (n : Nat) : ∀ (a b : BT.Tree n), LaterT n a b → BT.nodeStates n a = BT.nodeStates n b := by
  induction n with
  | zero => exact fun t => Empty.elim t
  | succ n ih =>
    intro a b h
    have h : Later (LaterT n) a b := h
    simp only [BT.nodeStates]
    rw [h.id, h.state, each_flatMap ih h.children]

theorem Each.comp {N M K : Type} {A : N → M → Prop} {B : N → K → Prop} {C : K → M → Prop} (h : ∀ a b c, A a b → C c b → B a c) :
    ∀ {l : List N} {m : List M} {k : List K}, Each A l m → Each C k m → Each B l k
  | [], _, _, .nil, .nil => .nil
  | _ :: _, _, _, .cons h1 h2, .cons g1 g2 => .cons (h _ _ _ h1 g1) (Each.comp h h2 g2)

theorem alike_later (n : Nat) : ∀ (t : Tree (Mem × S) n) (b c : BT.Tree n), Alike n t b → LaterT n c b → Alike n t c := by
  induction n with
  | zero => exact fun t => Empty.elim t
  | succ n ih =>
    intro t b c h g
    have h : Twin (Alike n) t b := h
    have g : Later (LaterT n) c b := g
    refine ⟨h.id.trans g.id.symm, h.name.trans g.name.symm, h.state.trans g.state.symm, h.mem.trans g.mem.symm, h.ctr.trans g.ctr.symm, ?_, Each.comp ih h.children g.children⟩
    intro op c st m names
    have := h.hook op c st m names
    rw [← g.kind] at this
    exact this

/-! ### Histories -/

/-- What is seen of the operations of the root: the answer, and the states of all nodes afterwards. -/
def seen {M : Type} (n : Nat) : List Move → Tree M n → Sys → List (Res × List (Nat × BTState))
  | [], _, _ => []
  | .act a :: ms, t, y => ((Values.ops M n).run a t y |>.res, states n ((Values.ops M n).run a t y).node) :: seen n ms ((Values.ops M n).run a t y).node ((Values.ops M n).run a t y).sys
  | m :: ms, t, y => seen n ms (step n t y m).node (step n t y m).sys

/-- The operations of the root. -/
def acts : List Move → List Op
  | [] => []
  | .act a :: ms => a.op :: acts ms
  | _ :: ms => acts ms

/-- What is seen of a tree without data. -/
def shown (n : Nat) (o : BT.Out (BT.Tree n)) : Res × List (Nat × BTState) := (o.res, BT.nodeStates n o.node)

theorem later_runs (n : Nat) (l : List Op) : ∀ a b : BT.Tree n, LaterT n a b → (BT.runs (BT.ops n) l a).1.map (shown n) = (BT.runs (BT.ops n) l b).1.map (shown n) ∧
    LaterT n (BT.runs (BT.ops n) l a).2 (BT.runs (BT.ops n) l b).2 := by
  induction l with
  | nil => exact fun a b h => ⟨rfl, h⟩
  | cons op l ih =>
    intro a b h
    obtain ⟨h1, h2⟩ := ((tree_refines (S := Unit) n).bisim a b h).2.2 op
    obtain ⟨h3, h4⟩ := ih _ _ h2
    refine ⟨?_, h4⟩
    simp only [BT.runs, List.map_cons]
    rw [h3]
    simp only [shown, h1, later_states n _ _ h2]

theorem runs_back (n : Nat) (ms : List Move) : ∀ (t : Tree (Mem × S) n) (y : Sys) (b : BT.Tree n), Alike n t b → ∃ b', Alike n t b' ∧ UntilT n b b' ∧
    (BT.runs (BT.ops n) (acts ms) b').1.map (shown n) = seen n ms t y ∧ Alike n (runs n ms t y).1 (BT.runs (BT.ops n) (acts ms) b').2 := by
  induction ms with
  | nil => exact fun t y b h => ⟨b, h, (tree_refines (S := S) n).urefl b, rfl, h⟩
  | cons m ms ih =>
    intro t y b h
    cases m with
    | incoming => exact ih t _ b h
    | offer => exact ih t _ b h
    | act a =>
      have hr := tree_refines (S := S) n
      obtain ⟨b1, g1, g2⟩ := hr.twin a t b y h
      obtain ⟨b2, k, k0, k1, k2⟩ := ih _ ((Values.ops (Mem × S) n).run a t y).sys b1 g1
      obtain ⟨b0, j1, j2, j3, j4⟩ := hr.back a t y b b2 h k (hr.ktrans _ _ _ g2 (hr.kin _ _ k0))
      obtain ⟨r1, r2⟩ := later_runs n (acts ms) _ _ j4
      refine ⟨b0, j1, j2, ?_, ?_⟩
      · simp only [acts, BT.runs, seen, List.map_cons]
        rw [r1, k1]
        simp only [shown, j3, later_states n _ _ j4, alike_states n _ _ k]
      · exact alike_later n _ _ _ k2 r2

theorem runs_append {N : Type} (o : BT.Ops N) (l k : List Op) : ∀ t : N, BT.runs o (l ++ k) t = ((BT.runs o l t).1 ++ (BT.runs o k (BT.runs o l t).2).1, (BT.runs o k (BT.runs o l t).2).2) := by
  induction l with
  | nil => exact fun t => rfl
  | cons op l ih =>
    intro t
    simp only [List.cons_append, BT.runs, ih]

/-- The past may have been the same with other answers in the future. -/
theorem graft_runs (n : Nat) (h : List Op) : ∀ (a b' : BT.Tree n), UntilT n (BT.runs (BT.ops n) h a).2 b' → ∃ b, UntilT n a b ∧ (BT.runs (BT.ops n) h b).2 = b' ∧
    (BT.runs (BT.ops n) h b).1.map (·.res) = (BT.runs (BT.ops n) h a).1.map (·.res) := by
  induction h with
  | nil => exact fun a b' u => ⟨b', u, rfl, rfl⟩
  | cons op h ih =>
    intro a b' u
    obtain ⟨b1, u1, u2, u3⟩ := ih ((BT.ops n).run op a).node b' u
    obtain ⟨b, v1, v2, v3⟩ := tree_grafts n op a b1 u1
    refine ⟨b, v1, ?_, ?_⟩
    · simp only [BT.runs, v2, u2]
    · simp only [BT.runs, List.map_cons, v2, u3, v3]

/-! ### Classes with data -/

/-- What a hook does with the data of its node: looks at inputs and outputs and sets outputs. -/
inductive Io (A : Type)
  | done (a : A)
  | read (k : NodeData → Io A)
  | write (key : String) (v : Val) (k : Ans → Io A)

/-- Something else after that. -/
def Io.andThen {A M : Type} : Io A → (A → Hook M) → Hook M
  | .done a, f => f a
  | .read k, f => .read fun d => (k d).andThen f
  | .write key v k, f => .write key v fun r => (k r).andThen f

/-- How a node uses its data. `leaf`: the hooks of a leaf, any class; they may use attributes of type `S`. `before`: what the hooks of the other
classes find out before they call children (the fields of `Env` are the things they depend on, `Verif/BT/Hooks.lean`) and what they set (IterateList
its item, list.py 207). `own`: what a getter does after its child has been ticked (getters.py 113-149). -/
structure Uses (S : Type) where
  leaf : Act → Nat → BTState → S → Io (S × Res)
  before : Act → Nat → BTState → Mem × S → Io (S × BT.Env)
  own : Nat → S → Io (S × BT.OwnRes)

/-- A hook of `Verif/BT/Hooks.lean` that uses no data any more. (Hooks of tick, untick and reset call nothing else, `hook_acts`.) -/
def plain (s : S) : Prog → Hook (Mem × S)
  | .done m r => .done (m, s) r
  | .peek i k => .peek i fun st => plain s (k st)
  | .call .tick i k => .call .tick i fun r => plain s (k r)
  | .call .untick i k => .call .untick i fun r => plain s (k r)
  | .call .reset i k => .call .reset i fun r => plain s (k r)
  | .call _ _ k => plain s (k .err)

/-- The hook of a node of the class `k` (nodes/sequence.py, fallback.py, parallel.py, decorators.py and so on, line by line in `Verif/BT/Hooks.lean`;
getters.py 113-149: the child is ticked first, then the own computation is made). -/
def hookOf (u : Uses S) (k : BT.Kind) (a : Act) (c : Nat) (st : BTState) (m : Mem × S) (names : List Nat) : Hook (Mem × S) :=
  match k, a with
  | .leaf, a => (u.leaf a c st m.2).andThen fun x => .done (m.1, x.1) x.2
  | .getter, .tick =>
    let own := (u.own c m.2).andThen fun x => .done (m.1, x.1) x.2.toRes
    if names.length = 0 then own
    else .call .tick 0 fun
      | .err => .done m .err
      | .ok s => if s = .failed ∨ s = .running then .done m (.ok s) else own
  | k, a => (u.before a c st m).andThen fun x => plain x.1 (hookProg k a.op st m.1 x.2 names)

/-- A tree without data is given data: `u` says how its nodes use theirs, `s` what their attributes are. -/
def dress (u : Nat → Uses S) (s : Nat → S) : (n : Nat) → BT.Tree n → Tree (Mem × S) n
  | 0, t => Empty.elim t
  | n + 1, (b : BT.Node (BT.Tree n)) => (⟨b.id, b.name, b.state, (b.mem, s b.id), b.ctr, hookOf (u b.id) b.kind, b.children.map (dress u s n)⟩ : Node (Mem × S) (Tree (Mem × S) n))

/-- Only tick, untick and reset are called. -/
def Acts : Prog → Prop
  | .done _ _ => True
  | .peek _ k => ∀ s, Acts (k s)
  | .call op _ k => (op = .tick ∨ op = .untick ∨ op = .reset) ∧ ∀ r, Acts (k r)

theorem acts_forAll (op : Op) (h : op = .tick ∨ op = .untick ∨ op = .reset) (m : Mem) (k : Prog) (hk : Acts k) : ∀ l, Acts (Prog.forAll op m l k)
  | [] => hk
  | _ :: l => ⟨h, fun r => by cases r with | err => trivial | ok s => exact acts_forAll op h m k hk l⟩

theorem acts_onHead (op : Op) (h : op = .tick ∨ op = .untick ∨ op = .reset) (n : Nat) (m : Mem) (f : BTState → BTState) (d : BTState) : Acts (Prog.onHead n op m f d) := by
  unfold Prog.onHead; split
  · trivial
  · exact ⟨h, fun _ => trivial⟩

theorem acts_resetIfFinished (n : Nat) (st : BTState) (m : Mem) (k : Prog) (hk : Acts k) : Acts (Prog.resetIfFinished n st m k) := by
  unfold Prog.resetIfFinished; split
  · exact acts_forAll _ (by simp) _ _ hk _
  · exact hk

theorem acts_seqLoop (b : Bool) (m : Mem) : ∀ l, Acts (Prog.seqLoop b m l)
  | [] => trivial
  | _ :: l => ⟨(by simp), fun r => by
    cases r with
    | err => trivial
    | ok s =>
      dsimp only
      split
      · exact acts_seqLoop b m l
      · split
        · trivial
        · exact acts_forAll _ (by simp) _ _ (by trivial) _⟩

theorem acts_fbLoop (b : Bool) (m : Mem) : ∀ l, Acts (Prog.fbLoop b m l)
  | [] => trivial
  | _ :: l => ⟨(by simp), fun r => by
    cases r with
    | err => trivial
    | ok s =>
      dsimp only
      split
      · trivial
      · split
        · exact acts_forAll _ (by simp) _ _ (by trivial) _
        · exact acts_fbLoop b m l⟩

theorem acts_parFinish (m : Mem) (s : BTState) : ∀ l, Acts (Prog.parFinish m s l)
  | [] => trivial
  | _ :: l => fun st => by
    dsimp only
    split
    · exact acts_parFinish m s l
    · exact ⟨(by simp), fun r => by cases r with | err => trivial | ok _ => exact acts_parFinish m s l⟩

theorem acts_parLoop (m : Mem) (k : Nat → Nat → Prog) (hk : ∀ a b, Acts (k a b)) : ∀ l sf, Acts (Prog.parLoop m k l sf)
  | [], _ => hk _ _
  | _ :: l, _ => fun st => by
    dsimp only
    split
    · exact acts_parLoop m k hk l _
    · exact ⟨(by simp), fun r => by cases r with | err => trivial | ok _ => exact fun _ => acts_parLoop m k hk l _⟩

theorem acts_untickOthers (m : Mem) (nm : Nat) (k : Prog) (hk : Acts k) : ∀ l, Acts (Prog.untickOthers m nm l k)
  | [] => hk
  | _ :: l => by
    simp only [Prog.untickOthers]
    split
    · exact acts_untickOthers m nm k hk l
    · exact ⟨(by simp), fun r => by cases r with | err => trivial | ok _ => exact acts_untickOthers m nm k hk l⟩

theorem acts_tickResetOn (n : Nat) (on : BTState) (m : Mem) : Acts (Prog.tickResetOn n on m) := by
  unfold Prog.tickResetOn; split
  · trivial
  · refine ⟨(by simp), fun r => ?_⟩
    cases r with
    | err => trivial
    | ok s =>
      dsimp only
      split
      · exact ⟨(by simp), fun _ => trivial⟩
      · trivial

/-- The hooks of tick, untick and reset do not set up or shut down children. -/
theorem hook_acts (k : BT.Kind) (a : Act) (st : BTState) (m : Mem) (e : BT.Env) (names : List Nat) : Acts (hookProg k a.op st m e names) := by
  have one : ∀ (op : Op) (m : Mem), (op = .tick ∨ op = .untick ∨ op = .reset) → Acts (.call op 0 fun r => .done m r) := fun op m h => ⟨h, fun _ => trivial⟩
  cases a with
  | untick =>
    show Acts (BT.untickHook k m e names)
    unfold BT.untickHook Prog.allThen Prog.untickPaused
    cases k <;> dsimp only
    all_goals first
      | trivial
      | exact acts_forAll _ (by simp) _ _ (by trivial) _
      | exact acts_onHead _ (by simp) _ _ _ _
      | (split; · exact one _ _ (by simp)
         · trivial)
  | reset =>
    show Acts (BT.resetHook k m e names)
    unfold BT.resetHook Prog.allThen
    cases k <;> dsimp only
    all_goals first
      | trivial
      | exact acts_forAll _ (by simp) _ _ (by trivial) _
      | exact acts_onHead _ (by simp) _ _ _ _
      | (split; · first | exact one _ _ (by simp) | exact acts_onHead _ (by simp) _ _ _ _
         · trivial)
  | tick =>
    show Acts (BT.tickHook k st m e names)
    unfold BT.tickHook
    cases k <;> dsimp only
    all_goals repeat' first
      | exact trivial
      | exact acts_seqLoop ..
      | exact acts_fbLoop ..
      | exact acts_parFinish ..
      | exact acts_tickResetOn ..
      | exact acts_onHead _ (by simp) ..
      | apply acts_resetIfFinished
      | apply acts_untickOthers
      | refine acts_parLoop _ _ (fun a b => ?_) _ _
      | unfold BT.iterateTick
      | split
      | refine ⟨(by simp), fun r => ?_⟩
      | dsimp only

theorem like_plain (s : S) (e0 : BT.Env) (p : Prog) : ∀ (E : BT.Env → Prop) (q : BT.Env → Prog), Acts p → E e0 → q e0 = p → Like E (plain s p) q := by
  induction p with
  | done m r => exact fun E q _ h1 h2 => ⟨e0, h1, h2⟩
  | peek i k ih =>
    intro E q ha h1 h2
    exact ⟨(· = e0), fun _ => k, fun e he => ⟨he ▸ h1, he ▸ h2⟩, fun st => ih st _ _ (ha st) rfl rfl⟩
  | call op i k ih =>
    intro E q ha h1 h2
    obtain ⟨hop, ha⟩ := ha
    rcases hop with rfl | rfl | rfl
    · exact ⟨(· = e0), fun _ => k, fun e he => ⟨he ▸ h1, he ▸ h2⟩, fun st => ih st _ _ (ha st) rfl rfl⟩
    · exact ⟨(· = e0), fun _ => k, fun e he => ⟨he ▸ h1, he ▸ h2⟩, fun st => ih st _ _ (ha st) rfl rfl⟩
    · exact ⟨(· = e0), fun _ => k, fun e he => ⟨he ▸ h1, he ▸ h2⟩, fun st => ih st _ _ (ha st) rfl rfl⟩

theorem like_andThen {A : Type} (io : Io A) (f : A → Hook (Mem × S)) (E : BT.Env → Prop) (q : BT.Env → Prog) (h : ∀ a, Like E (f a) q) : Like E (io.andThen f) q := by
  induction io with
  | done a => exact h a
  | read k ih => exact fun d => ih d
  | write key v k ih => exact fun r => ih r

theorem like_hookOf (u : Uses S) (k : BT.Kind) (a : Act) (c : Nat) (st : BTState) (m : Mem × S) (names : List Nat) :
    Like (fun _ => True) (hookOf u k a c st m names) fun e => hookProg k a.op st m.1 e names := by
  unfold hookOf
  split
  · exact like_andThen _ _ _ _ fun x => ⟨{ hook := x.2 }, trivial, by cases a <;> rfl⟩
  · dsimp only [Act.op, hookProg, BT.tickHook]
    split
    · exact like_andThen _ _ _ _ fun x => ⟨{ own := x.2 }, trivial, rfl⟩
    · refine ⟨fun _ => True, fun e => _, fun e _ => ⟨trivial, rfl⟩, fun r => ?_⟩
      cases r with
      | err => exact ⟨{}, trivial, rfl⟩
      | ok s =>
        dsimp only
        split
        · rename_i hs
          exact ⟨{}, trivial, rfl⟩
        · rename_i hs
          exact like_andThen _ _ _ _ fun x => ⟨{ own := x.2 }, trivial, rfl⟩
  · exact like_andThen _ _ _ _ fun x => like_plain x.1 x.2 _ _ _ (hook_acts ..) trivial rfl

theorem each_map {N M : Type} {R : N → M → Prop} {f : M → N} (h : ∀ b, R (f b) b) : ∀ l : List M, Each R (l.map f) l
  | [] => .nil
  | b :: l => .cons (h b) (each_map h l)

theorem alike_dress (u : Nat → Uses S) (s : Nat → S) (n : Nat) : ∀ b : BT.Tree n, Alike n (dress u s n b) b := by
  induction n with
  | zero => exact fun b => Empty.elim b
  | succ n ih => exact fun b => ⟨rfl, rfl, rfl, rfl, rfl, fun op c st m names => like_hookOf _ _ op c st m names, each_map ih _⟩

/-! ### The claims -/

/-- The same tree: only the answers of the outside world are different. -/
def SameNodes : (n : Nat) → BT.Tree n → BT.Tree n → Prop
  | 0, t, _ => Empty.elim t
  | n + 1, (a : BT.Node (BT.Tree n)), (b : BT.Node (BT.Tree n)) =>
    a.id = b.id ∧ a.name = b.name ∧ a.kind = b.kind ∧ a.state = b.state ∧ a.mem = b.mem ∧ Each (SameNodes n) a.children b.children

theorem sameNodes_until (n : Nat) : ∀ a b : BT.Tree n, UntilT n a b → SameNodes n a b := by
  induction n with
  | zero => exact fun a => Empty.elim a
  | succ n ih =>
    intro a b h
    have h : Until (UntilT n) a b := h
    exact ⟨h.id, h.name, h.kind, h.state, h.mem, Each.mono ih h.children⟩

/-- C125: trees with data show nothing that trees without data do not show. Take any tree, any history (say, a setup), and let its nodes then use
data in any way, with any wirings. Whatever operations of the root and data from outside follow, there are answers of the outside world for which the same
tree without data gives the same answers to all operations, with all nodes in the same states after each of them. So what `Verif/BT` proves for all
answers holds for trees with data. -/
theorem c125_refines (u : Nat → Uses S) (s : Nat → S) (n : Nat) (b : BT.Tree n) (h : List Op) (y : Sys) (ms : List Move) :
    let t := dress u s n (BT.runs (BT.ops n) h b).2
    ∃ b', SameNodes n b b' ∧ (BT.runs (BT.ops n) h b').1.map (·.res) = (BT.runs (BT.ops n) h b).1.map (·.res) ∧
      (BT.runs (BT.ops n) (acts ms) (BT.runs (BT.ops n) h b').2).1.map (shown n) = seen n ms t y ∧
      BT.nodeStates n (BT.runs (BT.ops n) (h ++ acts ms) b').2 = states n (runs n ms t y).1 := by
  intro t
  obtain ⟨b1, _, h1, h2, h3⟩ := runs_back n ms t y _ (alike_dress u s n (BT.runs (BT.ops n) h b).2)
  obtain ⟨b', g1, g2, g3⟩ := graft_runs n h b b1 h1
  refine ⟨b', sameNodes_until n _ _ g1, g3, ?_, ?_⟩
  · rw [g2]; exact h2
  · rw [runs_append, g2]; exact (alike_states n _ _ h3).symm

/-- All nodes of the tree are of such a class. -/
def OfKinds (P : BT.Kind → Bool) (n : Nat) (t : BT.Tree n) : Prop := BT.AllNodes (fun nd => P nd.kind = true) n t

instance (P : BT.Kind → Bool) (n : Nat) (t : BT.Tree n) : Decidable (OfKinds P n t) :=
  BT.decAllNodes _ (fun _ => inferInstance) n t

theorem allNodes_same {P : {N : Type} → BT.Node N → Prop} (hP : ∀ {N : Type} (a b : BT.Node N), a.kind = b.kind → a.state = b.state → a.mem = b.mem →
    a.children.length = b.children.length → P a → P b) (n : Nat) : ∀ a b : BT.Tree n, SameNodes n a b → BT.AllNodes P n a → BT.AllNodes P n b := by
  induction n with
  | zero => exact fun a => Empty.elim a
  | succ n ih =>
    intro a b ⟨_, _, h1, h2, h3, h4⟩ ⟨g1, g2⟩
    have hlen : ∀ {l m : List (BT.Tree n)}, Each (SameNodes n) l m → l.length = m.length := by
      intro l m h
      induction h with
      | nil => rfl
      | cons _ _ ih => simp only [List.length_cons, ih]
    refine ⟨hP _ _ h1 h2 h3 (hlen h4) g1, ?_⟩
    have : ∀ {l m : List (BT.Tree n)}, Each (SameNodes n) l m → (∀ c ∈ l, BT.AllNodes P n c) → ∀ c ∈ m, BT.AllNodes P n c := by
      intro l m h
      induction h with
      | nil => intro _ c hc; cases hc
      | cons h1 _ ih2 =>
        intro hl c hc
        rcases List.mem_cons.1 hc with rfl | hc
        · exact ih _ _ h1 (hl _ (List.mem_cons_self ..))
        · exact ih2 (fun c hc => hl c (List.mem_cons_of_mem _ hc)) c hc
    exact this h4 g2

theorem kinds_run (P : BT.Kind → Bool) (n : Nat) : ∀ (op : Op) (t : BT.Tree n), OfKinds P n t → OfKinds P n ((BT.ops n).run op t).node := by
  induction n with
  | zero => exact fun _ t => Empty.elim t
  | succ n ih =>
    intro op t h
    refine ⟨?_, BT.run_children (BT.ops n) _ (fun op c hc => ih op c hc) op t h.2⟩
    show P (BT.Node.run (BT.ops n) op t).node.kind = true
    rw [(BT.run_static (BT.ops n) op t).2.2.1]
    exact h.1

theorem kinds_runs (P : BT.Kind → Bool) (n : Nat) (h : List Op) : ∀ t : BT.Tree n, OfKinds P n t → OfKinds P n (BT.runs (BT.ops n) h t).2 := by
  induction h with
  | nil => exact fun _ ht => ht
  | cons op h ih => exact fun t ht => ih _ (kinds_run P n op t ht)

theorem kinds_mono {P Q : BT.Kind → Bool} (hpq : ∀ k, P k = true → Q k = true) (n : Nat) : ∀ t : BT.Tree n, OfKinds P n t → OfKinds Q n t := by
  induction n with
  | zero => exact fun t => Empty.elim t
  | succ n ih => exact fun t h => ⟨hpq _ h.1, fun c hc => ih c (h.2 c hc)⟩

/-- The state of the root. -/
theorem root_state (n : Nat) (t : Tree (Mem × S) n) (b : BT.Tree n) (h : BT.nodeStates n b = states n t) : (BT.ops n).state b = (Values.ops (Mem × S) n).state t := by
  cases n with
  | zero => exact Empty.elim t
  | succ n =>
    simp only [states, BT.nodeStates, List.cons.injEq, Prod.mk.injEq] at h
    exact h.1.2

/-- Without Optionals all nodes are in use. -/
theorem all_used {P : BTState → Prop} (n : Nat) : ∀ t : BT.Tree n, OfKinds (· ≠ .optional) n t → BT.AllUsed BT.idleOptional P n t → ∀ p ∈ BT.nodeStates n t, P p.2 := by
  induction n with
  | zero => exact fun a => Empty.elim a
  | succ n ih =>
    intro t ⟨k1, k2⟩ ⟨u1, u2⟩ p hp
    simp only [BT.nodeStates, List.mem_cons, List.mem_flatMap] at hp
    rcases hp with rfl | ⟨c, hc, hp⟩
    · exact u1
    · refine ih c (k2 c hc) (u2 ?_ c hc) p hp
      have : BT.Node.kind (N := BT.Tree n) t ≠ .optional := by simpa using k1
      revert this
      unfold BT.idleOptional
      cases BT.Node.kind (N := BT.Tree n) t <;> simp

theorem noThrottle_kinds (n : Nat) : ∀ t : BT.Tree n, OfKinds (· ≠ .throttleSuccess) n t → BT.NoThrottleSuccess n t := by
  induction n with
  | zero => exact fun t => Empty.elim t
  | succ n ih =>
    intro t h
    refine ⟨?_, fun c hc => ih c (h.2 c hc)⟩
    have := h.1
    simpa using this

theorem clean_kinds (n : Nat) : ∀ t : BT.Tree n,
    OfKinds (· ∉ [.optional, .throttleSuccess, .ignoreRunning, .nameSwitch, .enumSwitch, .iterateList, .throttle]) n t → BT.Clean n t := by
  induction n with
  | zero => exact fun t => Empty.elim t
  | succ n ih =>
    refine fun t h => ⟨?_, fun c hc => ih c (h.2 c hc)⟩
    have : decide (BT.Node.kind (N := BT.Tree n) t ∉ [.optional, .throttleSuccess, .ignoreRunning, .nameSwitch, .enumSwitch, .iterateList, .throttle]) = true := h.1
    revert this
    unfold BT.CleanRoot
    cases BT.Node.kind (N := BT.Tree n) t <;> simp

/-- C111 for trees with data: if the root is neither UNINITIALIZED nor BROKEN nor SHUTDOWN, no node is. -/
theorem c125_no_hidden_broken (u : Nat → Uses S) (s : Nat → S) (n : Nat) (b : BT.Tree n) (hf : BT.Fresh n b) (hw : BT.WF n b)
    (hk : OfKinds (fun k => k ≠ .optional ∧ k ≠ .throttleSuccess) n b) (h : List Op) (y : Sys) (ms : List Move) :
    let t' := (runs n ms (dress u s n (BT.runs (BT.ops n) h b).2) y).1
    (Values.ops (Mem × S) n).state t' ∉ [.uninitialized, .broken, .shutdown] → ∀ p ∈ states n t', p.2 ∉ [.uninitialized, .broken, .shutdown] := by
  intro t' hr
  obtain ⟨b', h1, _, _, h4⟩ := c125_refines u s n b h y ms
  rw [← root_state n t' _ h4] at hr
  rw [← h4]
  have k1 : OfKinds (fun k => k ≠ .optional ∧ k ≠ .throttleSuccess) n b' := allNodes_same (fun a b e _ _ _ g => by rw [← e]; exact g) n b b' h1 hk
  have f1 : BT.Fresh n b' := allNodes_same (fun a b _ e2 e3 _ g => by rw [← e2, ← e3]; exact g) n b b' h1 hf
  have w1 : BT.WF n b' := allNodes_same (fun a b e _ _ e4 g => by rw [← e, ← e4]; exact g) n b b' h1 hw
  have ht : BT.NoThrottleSuccess n b' :=
    noThrottle_kinds n b' (kinds_mono (fun k hk => by simp at hk ⊢; exact hk.2) n b' k1)
  exact all_used (P := fun s => s ∉ [.uninitialized, .broken, .shutdown]) n _ (kinds_runs _ n _ _ (kinds_mono (fun k hk => by simp at hk ⊢; exact hk.1) n b' k1))
    (BT.Alive.c111_no_hidden_broken_partial n b' f1 w1 ht _ hr)

/-- C18 for trees with data: while the root is not RUNNING (and set up and not BROKEN), no node is. -/
theorem c125_quiet (u : Nat → Uses S) (s : Nat → S) (n : Nat) (b : BT.Tree n) (hf : BT.Fresh n b) (hw : BT.WF n b)
    (hk : OfKinds (· ∉ [.optional, .throttleSuccess, .ignoreRunning, .nameSwitch, .enumSwitch, .iterateList, .throttle]) n b) (h : List Op) (y : Sys) (ms : List Move) :
    let t' := (runs n ms (dress u s n (BT.runs (BT.ops n) h b).2) y).1
    (Values.ops (Mem × S) n).state t' ∈ [.idle, .paused, .succeeded, .failed, .assigned, .unassigned] → ∀ p ∈ states n t', p.2 ≠ .running := by
  intro t' hr
  obtain ⟨b', h1, _, _, h4⟩ := c125_refines u s n b h y ms
  rw [← root_state n t' _ h4] at hr
  rw [← h4]
  have k1 : OfKinds (· ∉ [.optional, .throttleSuccess, .ignoreRunning, .nameSwitch, .enumSwitch, .iterateList, .throttle]) n b' :=
    allNodes_same (fun a b e _ _ _ g => by rw [← e]; exact g) n b b' h1 hk
  have f1 : BT.Fresh n b' := allNodes_same (fun a b _ e2 e3 _ g => by rw [← e2, ← e3]; exact g) n b b' h1 hf
  have w1 : BT.WF n b' := allNodes_same (fun a b e _ _ e4 g => by rw [← e, ← e4]; exact g) n b b' h1 hw
  have ht : BT.Clean n b' := clean_kinds n b' k1
  exact all_used (P := fun s => s ≠ .running) n _ (kinds_runs _ n _ _ (kinds_mono (fun k hk => by simp at hk ⊢; exact hk.1) n b' k1))
    (BT.c18_calm_root_is_quiet n b' f1 w1 ht _ hr)

/-! ### C124 for the classes of the project -/

/-- Outputs are set in ticks only, each of them once at most, and what is found out is such that `P`. -/
def Io.Neat {A : Type} (a : Act) (P : A → Prop) : List String → Io A → Prop
  | _, .done x => P x
  | ws, .read k => ∀ d, (k d).Neat a P ws
  | ws, .write key _ k => a = .tick ∧ key ∉ ws ∧ ∀ r, (k r).Neat a P (key :: ws)

/-- A node that does so; the tick of a leaf ends in a state in which a tick may end. -/
structure Uses.Neat (u : Uses S) : Prop where
  leaf : ∀ a c st s, (u.leaf a c st s).Neat a (fun x => a = .tick → ∀ s, x.2 = .ok s → BT.allowedAfter .tick s = true) []
  before : ∀ a c st m, (u.before a c st m).Neat a (fun _ => True) []
  own : ∀ c s, (u.own c s).Neat .tick (fun _ => True) []

theorem fit_plain (a : Act) (s : S) (p : Prog) : ∀ ws, p.Post (fun op s => BT.allowedAfter op s = true) (BT.GoodEnd a.op) → Acts p →
    Values.Fit (fun m : Mem × S => BT.CacheOk m.1) a ws (plain s p) := by
  induction p with
  | done m r => exact fun ws h _ => ⟨h.1, fun ha s hs => by subst ha; exact h.2 s hs⟩
  | peek i k ih => exact fun ws h ha st => ih st ws (h st) (ha st)
  | call op i k ih =>
    intro ws h ⟨hop, ha⟩
    rcases hop with rfl | rfl | rfl
    · exact fun r hr => ih r ws (h r hr) (ha r)
    · exact fun r hr => ih r ws (h r hr) (ha r)
    · exact fun r hr => ih r ws (h r hr) (ha r)

theorem fit_andThen {A : Type} {I : Mem × S → Prop} (a : Act) (P : A → Prop) (f : A → Hook (Mem × S)) (hf : ∀ x ws, P x → Values.Fit I a ws (f x)) (io : Io A) :
    ∀ ws, io.Neat a P ws → Values.Fit I a ws (io.andThen f) := by
  induction io with
  | done x => exact fun ws h => hf x ws h
  | read k ih => exact fun ws h d => ih d ws (h d)
  | write key v k ih => exact fun ws h => ⟨h.1, h.2.1, fun r => ih r _ (h.2.2 r)⟩

theorem own_allowed (o : BT.OwnRes) : ∀ s, o.toRes = .ok s → BT.allowedAfter .tick s = true := by
  cases o <;> intro s h <;> cases h <;> rfl

theorem fit_hookOf (u : Uses S) (hu : u.Neat) (k : BT.Kind) (a : Act) (c : Nat) (st : BTState) (m : Mem × S) (names : List Nat) (hm : BT.CacheOk m.1) :
    Values.Fit (fun m : Mem × S => BT.CacheOk m.1) a [] (hookOf u k a c st m names) := by
  unfold hookOf
  split
  · exact fit_andThen a _ (fun x : S × Res => .done (m.1, x.1) x.2) (fun x ws hx => ⟨hm, hx⟩) _ _ (hu.leaf ..)
  · have own : ∀ ws, ws = [] → Values.Fit (fun m : Mem × S => BT.CacheOk m.1) .tick ws ((u.own c m.2).andThen fun x => .done (m.1, x.1) x.2.toRes) :=
      fun ws hw => fit_andThen .tick (fun _ => True) (fun x => .done (m.1, x.1) x.2.toRes) (fun x ws _ => ⟨hm, fun _ => own_allowed x.2⟩) _ _ (hw ▸ hu.own ..)
    dsimp only
    split
    · exact own _ rfl
    · intro r hr
      cases r with
      | err => exact ⟨hm, fun _ s h => by cases h⟩
      | ok s =>
        dsimp only
        split
        · exact ⟨hm, fun _ s' h => by cases h; exact hr _ rfl⟩
        · exact own _ rfl
  · rename_i h1 _
    refine fit_andThen a _ _ (fun x ws _ => fit_plain a x.1 _ ws (BT.hook_post _ h1 _ _ _ _ _ hm) (hook_acts ..)) _ _ (hu.before ..)

theorem fit_dress (u : Nat → Uses S) (hu : ∀ i, (u i).Neat) (s : Nat → S) (n : Nat) : ∀ b : BT.Tree n, BT.Caches n b →
    AllFit (fun m : Mem × S => BT.CacheOk m.1) n (dress u s n b) := by
  induction n with
  | zero => exact fun b => Empty.elim b
  | succ n ih =>
    intro b h
    refine ⟨⟨fun a c st m l hm => fit_hookOf _ (hu _) _ a c st m l hm, h.1⟩, fun c hc => ?_⟩
    obtain ⟨d, hd, rfl⟩ := List.mem_map.1 hc
    exact ih d (h.2 d hd)

theorem ids_runs (n : Nat) (h : List Op) : ∀ b : BT.Tree n, BT.nodeIds n (BT.runs (BT.ops n) h b).2 = BT.nodeIds n b := by
  induction h with
  | nil => exact fun b => rfl
  | cons op h ih => exact fun b => (ih _).trans (BT.nodeIds_run n op b)

/-- C124 for trees of the classes of the project: only what leaves do, and what is set, has to be asked for. -/
theorem c124_classes_partial (u : Nat → Uses S) (hu : ∀ i, (u i).Neat) (s : Nat → S) (n : Nat) (b : BT.Tree n) (hf : BT.Fresh n b) (hn : (BT.nodeIds n b).Nodup)
    (h : List Op) (f : Flow) (h1 : OneSource f.conns) (h2 : IncomingApart f) (h3 : DynamicOutputs f) (ms : List Move) :
    let t := dress u s n (BT.runs (BT.ops n) h b).2
    ∀ p ∈ (runs n ms t (started f)).2.2, ∀ src xs x, f.conns.lookup src = some xs → x ∈ xs → x.target = p.id →
      ∀ c v, p.sys.flow.output src x.sourceKey = some c → c.value = some v →
        Holds p.sys.flow x v ∨ p.sys.phase src = .broken ∨ above n t src p.id ∧ c.updated = true := by
  intro t
  refine c124_at_hooks_partial (fun m : Mem × S => BT.CacheOk m.1) n t f ⟨fit_dress u hu s n _ (BT.caches_runs n h b (BT.caches_fresh n b hf)), ?_, h1, h2, h3⟩ ms
  rw [alike_states n _ _ (alike_dress u s n _)]
  have := ids_runs n h b
  exact (show (BT.nodeIds n (BT.runs (BT.ops n) h b).2).Nodup from this ▸ hn)

/-! ### Example -/

/-- A leaf with this tick. -/
def leafUses (tick : Nat → Io (Nat × Res)) : Uses Nat where
  leaf := fun a _ _ s => match a with
    | .tick => tick s
    | _ => .done (s, .ok .idle)
  before := fun _ _ _ m => .done (m.2, {})
  own := fun _ s => .done (s, .succeeded)

/-- Leaf 0 counts with an attribute and puts out the number, leaf 1 (wired to it) fails until it finds a 2. -/
def uses : Nat → Uses Nat
  | 0 => leafUses fun s => .write "out" (.int s) fun _ => .done (s + 1, .ok .succeeded)
  | _ => leafUses fun s => .read fun d =>
    match (d.inputs.lookup "in").bind (·.value) with
    | some (.int 2) => .done (s, .ok .succeeded)
    | _ => .done (s, .ok .failed)

/-- An UntilSuccess over a Sequence of both. -/
def tree : BT.Tree 3 :=
  BT.mk 2 3 .untilSuccess [BT.mk 1 2 .sequence [BT.mkLeaf 0 0 [.ok .idle], BT.mkLeaf 0 1 [.ok .idle]]]

/-- With a fourth node. -/
def quad : Flow := { trio with nodes := trio.nodes ++ [(3, ⟨[], []⟩)], conns := trio.conns ++ [(3, [])] }

/-- The tree after its setup, with data. -/
def dressed : Tree (Mem × Nat) 3 := dress uses (fun _ => 0) 3 (BT.runs (BT.ops 3) [.setup] tree).2

example : BT.Fresh 3 tree ∧ BT.WF 3 tree ∧ OfKinds (fun k => k ≠ .optional ∧ k ≠ .throttleSuccess) 3 tree := by
  refine ⟨by decide, by decide, by decide⟩

example : seen 3 [.act .tick, .act .tick, .act .tick] dressed (started quad) =
    [(.ok .running, [(3, .running), (2, .idle), (0, .idle), (1, .idle)]), (.ok .running, [(3, .running), (2, .idle), (0, .idle), (1, .idle)]),
     (.ok .succeeded, [(3, .succeeded), (2, .succeeded), (0, .succeeded), (1, .succeeded)])] := by decide +kernel

theorem uses_neat : ∀ i, (uses i).Neat := by
  intro i
  cases i with
  | zero =>
    refine ⟨fun a _ _ s => ?_, fun _ _ _ _ => trivial, fun _ _ => trivial⟩
    cases a
    · exact ⟨rfl, (by simp), fun _ _ s h => by cases h; rfl⟩
    · exact fun h => by cases h
    · exact fun h => by cases h
  | succ i =>
    refine ⟨fun a _ _ s => ?_, fun _ _ _ _ => trivial, fun _ _ => trivial⟩
    cases a
    · intro d
      dsimp only
      split
      · exact fun _ s h => by cases h; rfl
      · exact fun _ s h => by cases h; rfl
    · exact fun h => by cases h
    · exact fun h => by cases h

theorem quad_fine : OneSource quad.conns ∧ IncomingApart quad ∧ DynamicOutputs quad := by
  have hl : ∀ s xs, quad.conns.lookup s = some xs → s = 0 ∧ xs = [⟨"out", 1, "in"⟩] ∨ xs = [] := by
    intro s xs h
    match s, h with
    | 0, h => cases h; exact .inl ⟨rfl, rfl⟩
    | 1, h => cases h; exact .inr rfl
    | 2, h => cases h; exact .inr rfl
    | 3, h => cases h; exact .inr rfl
    | n + 4, h => simp [quad, trio, List.lookup] at h
  refine ⟨⟨fun s xs h => ?_, fun s s' xs xs' x x' h h' hx hx' _ => ?_⟩, fun s xs x _ _ => rfl, fun n k c h => ?_⟩
  · rcases hl s xs h with ⟨_, rfl⟩ | rfl <;> decide
  · rcases hl s xs h with ⟨rfl, rfl⟩ | rfl
    · rcases hl s' xs' h' with ⟨rfl, _⟩ | rfl
      · rfl
      · cases hx'
    · cases hx
  · have hb : ∀ d : NodeData, d.outputs = [("out", num)] → d.outputs.lookup k = some c → c.isStatic = false := by
      intro d hd h
      rw [hd] at h
      simp only [List.lookup] at h
      split at h
      · cases h; rfl
      · cases h
    match n, h with
    | 0, h => exact hb ⟨[], [("out", num)]⟩ rfl h
    | 1, h => exact hb ⟨[("in", num)], [("out", num)]⟩ rfl h
    | 2, h => cases h
    | 3, h => cases h
    | n + 4, h => simp [quad, trio, Flow.output, List.lookup] at h

example : (∀ i, (uses i).Neat) ∧ BT.Fresh 3 tree ∧ (BT.nodeIds 3 tree).Nodup ∧ OneSource quad.conns ∧ IncomingApart quad ∧ DynamicOutputs quad :=
  ⟨uses_neat, by decide, by decide, quad_fine⟩

end Verif.Whole.Refine
