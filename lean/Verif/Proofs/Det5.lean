import Verif.Proofs.Det4
import Verif.Props.Resolver

/-! Resolution and default operations in every order. -/
namespace Oapi.Resolver
open Spec

theorem visit_exp {cfg cfg' : Cfg} (hr : cfg'.res = cfg.res) (hg : ∀ p, get cfg'.exp p = get cfg.exp p)
    {call call' : List Str → Json → St → Res (Cur × St)} (hc : call' = call) : visit cfg' call' = visit cfg call := by
  subst hc
  funext pp cx st key v
  unfold visit
  cases v <;> try rfl
  rename_i s
  simp only [set, setRecursive, hg, hr]

theorem loop_exp {cfg cfg' : Cfg} (hr : cfg'.res = cfg.res) (hg : ∀ p, get cfg'.exp p = get cfg.exp p)
    {call call' : List Str → Json → St → Res (Cur × St)} (hc : call' = call) (pp : List Str) :
    ∀ l cx st, loop cfg' call' pp l cx st = loop cfg call pp l cx st := by
  intro l
  induction l with
  | nil => intro cx st; rfl
  | cons e t ih =>
    intro cx st
    obtain ⟨key, v⟩ := e
    simp only [loop, visit_exp hr hg hc]
    split <;> first | rfl | exact ih _ _

theorem iter_exp {cfg cfg' : Cfg} (hr : cfg'.res = cfg.res) (hg : ∀ p, get cfg'.exp p = get cfg.exp p) (ho : cfg'.ord = cfg.ord) :
    ∀ n pp cx st, iter cfg' n pp cx st = iter cfg n pp cx st := by
  intro n
  induction n with
  | zero => intro pp cx st; rfl
  | succ n ih =>
    intro pp cx st
    simp only [iter, ho]
    split
    · rfl
    · rfl
    · exact loop_exp hr hg (by funext pp j st; exact ih pp (some j) st) pp _ _ _

/-- Only the exports that can be looked up matter. -/
theorem resolve_exp {cfg cfg' : Cfg} (hr : cfg'.res = cfg.res) (hg : ∀ p, get cfg'.exp p = get cfg.exp p) (ho : cfg'.ord = cfg.ord) (n : Nat) (c : Json) :
    resolve cfg' n c = resolve cfg n c := by
  unfold resolve
  rw [iter_exp hr hg ho]

end Oapi.Resolver
