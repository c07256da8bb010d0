import Verif.Oracle.Model

/-!
# What is expected of the oracle
-/

namespace Verif.Oracle
open Verif Verif.Prices

/-- `x` is in the middle of `l`: at most half of the values are below it, fewer than half above it. -/
structure Middle (l : List TSP) (x : TSP) : Prop where
  mem : x ∈ l
  below : (l.filter (fun y => decide (y.value < x.value))).length ≤ l.length / 2
  above : (l.filter (fun y => decide (x.value < y.value))).length ≤ l.length - 1 - l.length / 2

/-- Selection finds a value in the middle. -/
structure Cfg.OK (c : Cfg) : Prop where
  pick : ∀ l, l ≠ [] → ∃ x, c.pick l = some x ∧ Middle l x

/-- Fewer than half of the current operators (committee and root) are dishonest. -/
def FewDishonest (c : Cfg) (H : Nat → Prop) [DecidablePred H] (s : State) : Prop :=
  2 * ((operators c s).filter (fun w => decide ¬ H w)).length < (operators c s).length

/-- Fewer than half of the values of `k` that count, if there are enough of them for a new price, are from dishonest
operators. -/
def Majority (c : Cfg) (H : Nat → Prop) [DecidablePred H] (s : State) (k : Nat) : Prop :=
  c.minCount ≤ (fresh c s k).length →
    2 * ((fresh c s k).filter (fun x => decide ¬ H x.1)).length < (fresh c s k).length

/-- Honest operators feed values in the range of their asset, and `M` holds whenever a raw value of an asset has been
stored. -/
def Good (c : Cfg) (H : Nat → Prop) (M : State → Nat → Prop) (lo hi : Nat → Nat) (s : State) (w : Nat) :
    List (Nat × Nat) → Prop
  | [] => True
  | (k, v) :: vs => (H w → lo k ≤ v ∧ v ≤ hi k) ∧ M (putRaw s w k v) k ∧ Good c H M lo hi (feedOne c s w k v) w vs

/-- Histories in which all feeds are like that. -/
inductive Story (c : Cfg) (H : Nat → Prop) (M : State → Nat → Prop) (lo hi : Nat → Nat) : State → Prop
  | init {s : State} (h : Fresh s) : Story c H M lo hi s
  | feed {s s' : State} (h : Story c H M lo hi s) {origin : Option Nat} {w : Nat} (ha : account c s origin = .ok w)
      (hm : markFed c s w = .ok s') (vs : List (Nat × Nat)) (hg : Good c H M lo hi s' w vs) :
      Story c H M lo hi (doFeed c s' w vs)
  | finalize {s : State} (h : Story c H M lo hi s) : Story c H M lo hi (finalize s)
  | members {s : State} (h : Story c H M lo hi s) (ms : List Nat) (hl : ms.length ≤ c.maxMembers) (hn : ms.Nodup) :
      Story c H M lo hi { s with members := ms }
  | time {s : State} (h : Story c H M lo hi s) (d : Nat) : Story c H M lo hi { s with now := s.now + d }

end Verif.Oracle
