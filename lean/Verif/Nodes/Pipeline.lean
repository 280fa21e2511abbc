import Verif.Nodes.Compare
import Verif.Data.Deliver

/-! C80: what a data node computes arrives at the inputs that are wired to it. -/

set_option autoImplicit false

namespace Verif.Nodes

open Verif.Data
open Verif.BT (BTState Res)

/-- node.py 408-484: the tick of the node `n` in a tree that is set up. (`Flow.finish` takes the marks off the inputs a second
time.) -/
def tickNode (f : Flow) (n : Nat) (hook : NodeData → Out) : Flow × Option Res :=
  match f.nodes.lookup n with
  | none => (f, some .err)
  | some d =>
    let o := tick hook d
    let f' := { f with nodes := Data.modify n (fun _ => o.data) f.nodes }
    match o.res with
    | some (.ok s) => ((f'.finish n).1, ansRes s (f'.finish n).2)
    | r => (f', r)

/-- The output `k` of node `n` shows a value that is the same as `v`, and the inputs wired to it hold that value. -/
def Arrives (f : Flow) (n : Nat) (k : String) (v : Val) : Prop :=
  ∃ w c, f.output n k = some c ∧ c.value = some w ∧ Nodes.Same w v ∧ ∀ x ∈ f.connsOf n, x.sourceKey = k → Holds f x w

theorem finish_conns {f f' : Flow} {n : Nat} (h : f.finish n = (f', .ok)) : f'.conns = f.conns := by
  rcases pushOutputs_cases h with ⟨_, e⟩ | ⟨g, b, _, hp, _, hc, _⟩
  · exact absurd rfl e
  · rw [hc, (pushConns_frame _ _ _ _ _ hp).1]
    rfl

/-- C80: when a node whose tick yields `v` has been ticked with success, the inputs wired to its output hold this value, if the output
did not show it before. -/
theorem c80_arrives (f : Flow) (n : Nat) (hook : NodeData → Out) (d : NodeData) (k : String) (v : Val) (hd : f.nodes.lookup n = some d)
    (hone : ((f.connsOf n).map Conn.place).Nodup) (hy : Yields hook d k v) (hn : ¬ Shows d k v)
    (hs : (tickNode f n hook).2 = some (.ok .succeeded)) : Arrives (tickNode f n hook).1 n k v := by
  obtain ⟨y1, ⟨w, y2, y3⟩, y4, _⟩ := hy
  obtain ⟨c, c1, c2⟩ := y4 hn
  have hv : c.value = some w := by simpa [outputValue, c1] using y2
  simp only [tickNode, hd, y1] at hs ⊢
  generalize hf : ({ f with nodes := Data.modify n (fun _ => (tick hook d).data) f.nodes } : Flow) = g at hs ⊢
  have ho : g.output n k = some c := by
    subst hf
    simp [Flow.output, lookup_modify, hd, c1]
  have hg : g.connsOf n = f.connsOf n := by subst hf; rfl
  cases he : g.finish n with
  | mk f' a =>
    rw [he] at hs
    have ha : a = .ok := by
      cases a with
      | ok => rfl
      | err => cases hs
      | raise => cases hs
    subst ha
    obtain ⟨h1, _, h3⟩ := c51_tick_partial g f' n he (by rw [hg]; exact hone)
    refine ⟨w, c, by rw [h3, ho], hv, y3, fun x hx hk => ?_⟩
    have hx : x ∈ g.connsOf n := by
      rw [Flow.connsOf, finish_conns he] at hx
      exact hx
    exact (h1 x hx w ⟨c, by rw [hk, ho], c2, hv⟩).1

/-! ### Example: a Constant wired to the list of ListLength, which is wired to a Compare -/

/-- An empty container. -/
def blank (t : Ty) : Cont := ⟨t, true, true, false, none, false⟩

/-- The type of lists of integers. -/
def ints : Ty := .list (.int 0 100) true 10 false

/-- Three nodes in a row. -/
def sampleRow : Flow where
  nodes := [(0, ⟨[("constant_value", cont ints (.list [.int 5, .int 6]))], [("constant", blank ints)]⟩),
    (1, ⟨[("list", blank ints)], [("length", blank (.int 0 100))]⟩),
    (2, ⟨[("a", blank (.int 0 100)), ("b", cont (.int 0 100) (.int 2))], []⟩)]
  conns := [(0, [⟨"constant", 1, "list"⟩]), (1, [⟨"length", 2, "a"⟩]), (2, [])]

/-- The row after the Constant has been ticked. -/
def sampleRow1 : Flow := (tickNode sampleRow 0 constant).1

/-- The row after the ListLength has been ticked, too. -/
def sampleRow2 : Flow := (tickNode sampleRow1 1 listLength).1

example : (tickNode sampleRow 0 constant).2 = some (.ok .succeeded) ∧ (tickNode sampleRow1 1 listLength).2 = some (.ok .succeeded) ∧
    (tickNode sampleRow2 2 compare).2 = some (.ok .succeeded) ∧ (tickNode sampleRow 1 listLength).2 = some .err := by decide +kernel

example : Arrives sampleRow1 0 "constant" (.list [.int 5, .int 6]) := by
  refine c80_arrives sampleRow 0 constant _ "constant" _ rfl (by simp [sampleRow, Flow.connsOf]) (c78_constant _ _ ?_ rfl ?_) ?_ (by decide +kernel)
  · simp [Ready, cont]
  · refine ⟨_, rfl, rfl, ?_⟩
    exact (check_ok _ _).mp (by decide +kernel)
  · simp [Shows, outputValue, blank]

end Verif.Nodes
