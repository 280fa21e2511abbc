import Verif.BT.Pass

/-!
# Options are read by setup and kept until the next setup
-/

set_option autoImplicit false

namespace Verif.BT

variable {N : Type}

/-- The attributes that hold options read at setup. -/
structure Cfg where
  limit : Int
  needed : Int
  tolerate : Int
  runIsSucc : Bool
  execChild : Bool
  childMap : List (Nat × Nat)
  rootSet : Bool
  deriving DecidableEq

/-- Their values in the attributes of a node. -/
def cfg (m : Mem) : Cfg :=
  ⟨m.limit, m.needed, m.tolerate, m.runIsSucc, m.execChild, m.childMap, m.rootSet⟩

/-- No hook other than setup changes the options. -/
theorem hook_cfg (k : Kind) (op : Op) (hop : op ≠ .setup) (st : BTState) (m : Mem) (e : Env)
    (names : List Nat) :
    (hookProg k op st m e names).Post (fun _ _ => True) (fun m' _ => cfg m' = cfg m) := by
  cases op with
  | setup => exact absurd rfl hop
  | shutdown =>
    cases k <;> simp only [hookProg, shutdownHook] <;> (repeat' split) <;>
      first
      | exact rfl
      | exact post_call_done _ _ _ rfl (fun _ _ => rfl)
  | untick =>
    cases k <;> simp only [hookProg, untickHook, Prog.untickPaused] <;> (repeat' split) <;>
      first
      | exact rfl
      | exact post_allThen _ _ _ _ rfl rfl
      | exact post_onHead _ _ _ _ _ rfl rfl (fun _ _ => rfl)
      | exact post_call_done _ _ _ rfl (fun _ _ => rfl)
      | exact post_forAll _ _ _ _ rfl rfl
  | reset =>
    cases k <;> simp only [hookProg, resetHook] <;> (repeat' split) <;>
      first
      | exact rfl
      | exact post_allThen _ _ _ _ rfl rfl
      | exact post_onHead _ _ _ _ _ rfl rfl (fun _ _ => rfl)
      | exact post_call_done _ _ _ rfl (fun _ _ => rfl)
  | tick =>
    cases k with
    | leaf => exact rfl
    | sequence =>
      simp only [hookProg, tickHook]
      split
      · exact rfl
      · exact post_resetIfFinished _ _ _ _ rfl (post_seqLoop _ _ _ rfl rfl (fun _ => rfl) (fun _ _ => rfl))
    | fallback =>
      simp only [hookProg, tickHook]
      split
      · exact rfl
      · exact post_resetIfFinished _ _ _ _ rfl (post_fbLoop _ _ _ rfl rfl rfl (fun _ => rfl))
    | memSequence =>
      simp only [hookProg, tickHook]
      split
      · exact rfl
      · split
        · exact post_resetIfFinished _ _ _ _ rfl (post_seqLoop _ _ _ rfl rfl (fun _ => rfl) (fun _ _ => rfl))
        · exact post_resetIfFinished _ _ _ _ rfl (post_seqLoop _ _ _ rfl rfl (fun _ => rfl) (fun _ _ => rfl))
    | memFallback =>
      simp only [hookProg, tickHook]
      split
      · exact rfl
      · split
        · exact post_resetIfFinished _ _ _ _ rfl (post_fbLoop _ _ _ rfl rfl rfl (fun _ => rfl))
        · exact post_resetIfFinished _ _ _ _ rfl (post_fbLoop _ _ _ rfl rfl rfl (fun _ => rfl))
    | nameSwitch | enumSwitch =>
      simp only [hookProg, tickHook]
      split
      · split
        · exact rfl
        · split
          · exact rfl
          · exact post_resetIfFinished _ _ _ _ rfl (post_untickOthers _ _ _ _ rfl
              (post_call_done _ _ _ rfl (fun _ _ => rfl)))
      · exact rfl
    | parallel | parallelTol =>
      simp only [hookProg, tickHook]
      refine post_resetIfFinished _ _ _ _ rfl (post_parLoop _ _ _ rfl ?_ _)
      intro a b
      split
      · exact post_parFinish _ _ _ rfl rfl
      · split
        · exact post_parFinish _ _ _ rfl rfl
        · exact rfl
    | ignoreFailure | ignoreRunning | ignoreSuccess | inverter =>
      exact post_onHead _ _ _ _ _ rfl rfl (fun _ _ => rfl)
    | untilSuccess | repeatUntilFail | repeatIfFail =>
      exact post_tickResetOn _ _ _ rfl rfl rfl (fun _ _ => rfl)
    | retry | «repeat» =>
      simp only [hookProg, tickHook]
      split
      · exact rfl
      · intro r _
        cases r with
        | err => exact rfl
        | ok s =>
          simp only
          split
          · split
            · intro r _; exact rfl
            · exact rfl
          · exact rfl
    | repeatNoAutoReset =>
      simp only [hookProg, tickHook]
      split
      · have hm : cfg (if e.flag then { m with count := 0 } else m) = cfg m := by split <;> rfl
        generalize (if e.flag = true then { m with count := 0 } else m) = m' at hm ⊢
        split
        · split
          · exact hm
          · intro r _
            cases r with
            | err => exact hm
            | ok s =>
              simp only
              split
              · intro r _; exact hm
              · exact hm
        · exact hm
      · exact rfl
    | repeatAlways =>
      simp only [hookProg, tickHook]
      split
      · exact rfl
      · intro r _
        cases r with
        | err => exact rfl
        | ok s =>
          simp only
          split
          · intro r _
            cases r <;> exact rfl
          · exact rfl
    | optional =>
      simp only [hookProg, tickHook]
      split
      · exact post_call_done _ _ _ rfl (fun _ _ => rfl)
      · exact rfl
    | watch =>
      simp only [hookProg, tickHook]
      split
      · exact rfl
      · split
        · split
          · intro r _
            cases r with
            | err => exact rfl
            | ok _ => exact post_call_done _ _ _ rfl (fun _ _ => rfl)
          · exact post_call_done _ _ _ rfl (fun _ _ => rfl)
        · exact rfl
    | iterateList =>
      simp only [hookProg, tickHook]
      split
      · have hm : cfg (if e.flag then { m with outChanged := true, counter := 0 } else m) = cfg m := by
          split <;> rfl
        generalize (if e.flag = true then { m with outChanged := true, counter := 0 } else m) = m'
          at hm ⊢
        simp only [iterateTick]
        split
        · exact hm
        · split
          · exact hm
          · split
            · split
              · split <;> exact hm
              · split
                · exact hm
                · intro r _
                  cases r with
                  | err => exact hm
                  | ok s =>
                    simp only
                    split
                    · split <;> exact hm
                    · split <;> exact hm
            · exact hm
      · exact rfl
    | getter =>
      simp only [hookProg, tickHook]
      split
      · exact rfl
      · intro r _
        cases r with
        | err => exact rfl
        | ok s =>
          simp only
          split <;> exact rfl
    | throttle =>
      simp only [hookProg, tickHook]
      split
      · split
        · exact rfl
        · intro r _
          simp only
          split
          · exact rfl
          · intro r' _
            simp only
            split <;> exact rfl
      · exact rfl
    | throttleSuccess =>
      simp only [hookProg, tickHook]
      split
      · split
        · exact rfl
        · intro r _; exact rfl
      · exact rfl
    | subtree =>
      simp only [hookProg, tickHook]
      split
      · split
        · exact post_call_done _ _ _ rfl (fun _ _ => rfl)
        · exact rfl
      · exact rfl

/-- The attributes after an operation satisfy whatever holds before and after the hook. -/
theorem run_mem (o : Ops N) (op : Op) (nd : Node N) (Q : Mem → Prop) (h : Q nd.mem)
    (hx : Q (exec o (hookProg nd.kind op nd.state nd.mem (nd.env nd.ctr)
      (nd.children.map o.name)) nd.children).mem) : Q (nd.run o op).node.mem := by
  apply run_cases o op nd (P := fun out => Q out.node.mem)
  · intro _; exact h
  · intro _ _ _; exact h
  · intro x e _ _ _; subst e; exact hx
  · intro x s e _ _ _ _; subst e; exact hx
  · intro x s _ e _ _ _ _; subst e; exact hx
  · intro _ _; rw [(finishShutdown_mem o _ _ _).1]; exact h
  · intro x _ e _ _; rw [(finishShutdown_mem o _ _ _).1]; subst e; exact hx

theorem run_cfg (o : Ops N) (op : Op) (hop : op ≠ .setup) (nd : Node N) :
    cfg (nd.run o op).node.mem = cfg nd.mem :=
  run_mem o op nd (fun m => cfg m = cfg nd.mem) rfl
    (exec_post o (fun _ _ => True) _ (fun _ _ _ _ => trivial) _ nd.children
      (hook_cfg nd.kind op hop nd.state nd.mem (nd.env nd.ctr) (nd.children.map o.name)))

/-- Options, class and number of children after a history without setup. -/
theorem runs_cfg (o : Ops N) (l : List Op) (hl : Op.setup ∉ l) : ∀ nd : Node N,
    cfg (runs (Node.ops o) l nd).2.mem = cfg nd.mem ∧
    (runs (Node.ops o) l nd).2.kind = nd.kind ∧
    (runs (Node.ops o) l nd).2.children.length = nd.children.length := by
  induction l with
  | nil => intro nd; exact ⟨rfl, rfl, rfl⟩
  | cons op l ih =>
    intro nd
    have := ih (fun h => hl (List.mem_cons_of_mem _ h)) (nd.run o op).node
    obtain ⟨_, _, hk, _, _, hlen⟩ := run_static o op nd
    refine ⟨this.1.trans (run_cfg o op (fun h => hl (h ▸ List.mem_cons_self)) nd),
      this.2.1.trans hk, this.2.2.trans hlen⟩

end Verif.BT
