import Verif.Proof.AxiSysWrite
import Verif.Proof.AxiSysRead

/-!
# Both sides of a connected AXI system
-/

namespace Verif.AxiSys

open Verif.Axi Verif.AxiOps Verif.AxiOps.Master

variable {σ : Type} {c : Cfg} {wa : Nat → WArgs} {ra : Nat → Req} {t : Target σ} {st : σ} {evs : List Ev}

theorem Sys.at_succ (n : Nat) :
    (∃ e, evs[n]? = some e ∧ Sys.at c wa ra t st evs (n + 1) = (Sys.at c wa ra t st evs n).step c wa ra t e) ∨
      (evs.length ≤ n ∧ Sys.at c wa ra t st evs (n + 1) = Sys.at c wa ra t st evs n) := by
  by_cases hn : n < evs.length
  · refine .inl ⟨evs[n], List.getElem?_eq_getElem hn, ?_⟩
    simp only [Sys.at, Sys.run]
    rw [List.take_succ_eq_append_getElem hn, List.foldl_append]
    rfl
  · refine .inr ⟨by omega, ?_⟩
    simp only [Sys.at]
    rw [List.take_of_length_le (by omega), List.take_of_length_le (by omega)]

theorem Sys.traceW (hc : c.Std) (hw : ∀ k, (wa k).req.id ≠ some (2 ^ c.idWidth)) :
    WTrace c wa t (fun n => (Sys.at c wa ra t st evs n).w) (fun n => (Sys.at c wa ra t st evs n).mem) where
  std := hc
  ids := hw
  start := rfl
  next := by
    intro n
    rcases Sys.at_succ (c := c) (wa := wa) (ra := ra) (t := t) (st := st) (evs := evs) n with ⟨e, _, he⟩ | ⟨_, he⟩
    · cases e with
      | w e => exact .inl ⟨e, by rw [he]; rfl⟩
      | r e => exact .inr (by simp only [he]; rfl)
    · exact .inr (by simp only [he])

theorem Sys.traceR (hc : c.Std) (hr : ∀ k, (ra k).id ≠ some (2 ^ c.idWidth)) :
    RTrace c ra t (fun n => (Sys.at c wa ra t st evs n).r) (fun n => (Sys.at c wa ra t st evs n).mem) where
  std := hc
  ids := hr
  start := rfl
  next := by
    intro n
    rcases Sys.at_succ (c := c) (wa := wa) (ra := ra) (t := t) (st := st) (evs := evs) n with ⟨e, _, he⟩ | ⟨_, he⟩
    · cases e with
      | w e => exact .inr (by simp only [he]; rfl)
      | r e => exact .inl ⟨e, by rw [he]; rfl⟩
    · exact .inr (by simp only [he])

theorem MInv.outstanding {ρ : Type} {n : Nat} {mk : Nat → Option Op} {calls : Nat} {m : Master ρ} (h : MInv n mk calls m)
    {op : Op} (hp : op ∈ m.pend) : Outstanding m op := (h.pend_iff op).1 hp

theorem WTrace.minv {p : Nat → WPort} {μ : Nat → σ} (h : WTrace c wa t p μ) (n : Nat) :
    MInv c.idCount (wMk c wa) (p n).calls (p n).m := by
  obtain ⟨w, hw, _⟩ := h.inv n
  exact hw.m

theorem RTrace.minv {p : Nat → RPort} {μ : Nat → σ} (h : RTrace c ra t p μ) (n : Nat) :
    MInv c.idCount (rMk c ra) (p n).calls (p n).m := by
  obtain ⟨w, hw, _⟩ := h.inv n
  exact hw.m

/-- Every change of the target is a beat of a burst under way. -/
theorem Sys.mem_step (hc : c.Std) (hw : ∀ k, (wa k).req.id ≠ some (2 ^ c.idWidth))
    (hr : ∀ k, (ra k).id ≠ some (2 ^ c.idWidth)) (n : Nat) :
    let S := Sys.at c wa ra t st evs
    (S (n + 1)).mem = (S n).mem ∨
    (∃ g k wb ok, g ∈ wAll c wa (S n).w.m ∧ (wOpen c wa (S n).w).head? = some g ∧ g.op ∈ (S n).w.m.pend ∧ g.ws[k]? = some wb ∧
      WroteBeat c t g.a k wb (S n).mem ok (S (n + 1)).mem) ∨
    (∃ g k r, g ∈ rAll c ra (S n).r.m ∧ k < g.a.beats ∧ (rOpen c ra (S n).r).head? = some g ∧ g.op ∈ (S n).r.m.pend ∧
      ReadBeat c t g.a k (S n).mem r (S (n + 1)).mem) := by
  intro S
  rcases Sys.at_succ (c := c) (wa := wa) (ra := ra) (t := t) (st := st) (evs := evs) n with ⟨e, _, he⟩ | ⟨_, he⟩
  · cases e with
    | w e =>
      obtain ⟨w, h1, _⟩ := (Sys.traceW (wa := wa) (ra := ra) (t := t) (st := st) (evs := evs) hc hw).inv n
      obtain ⟨w', _, h2⟩ := h1.step (t := t) hc (wMk_id hc hw) (S n).mem e n
      have hm : (S (n + 1)).mem = ((S n).w.step c wa t (S n).mem e).2 := by
        show (Sys.at c wa ra t st evs (n + 1)).mem = _
        rw [he]; rfl
      rw [hm]
      rcases h2 with ⟨_, h2⟩ | ⟨g, k, ok, wb, _, h3⟩
      · exact .inl h2
      · exact .inr (.inl ⟨g, k, wb, ok, h3⟩)
    | r e =>
      obtain ⟨w, h1, _⟩ := (Sys.traceR (wa := wa) (ra := ra) (t := t) (st := st) (evs := evs) hc hr).inv n
      obtain ⟨w', _, h2⟩ := h1.step (t := t) hc (rMk_id hc hr) (S n).mem e n
      have hm : (S (n + 1)).mem = ((S n).r.step c ra t (S n).mem e).2 := by
        show (Sys.at c wa ra t st evs (n + 1)).mem = _
        rw [he]; rfl
      rw [hm]
      rcases h2 with ⟨_, h2⟩ | ⟨g, k, r, _, h3⟩
      · exact .inl h2
      · exact .inr (.inr ⟨g, k, r, h3⟩)
  · exact .inl (by simp only [S]; rw [he])

end Verif.AxiSys
