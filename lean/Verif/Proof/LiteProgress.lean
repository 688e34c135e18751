import Verif.Proof.LiteSystem
import Verif.Spec.LiteProgress

/-!
# Progress of an AXI-lite port connected to a slave
-/

namespace Verif.LiteOps

variable {χ ρ σ : Type}

/-- Number of transfers of the operations. -/
def total (l : List (Op χ)) : Nat := (l.flatMap (·.xs)).length

theorem total_cons (o : Op χ) (l : List (Op χ)) : total (o :: l) = o.xs.length + total l := by
  simp [total]

theorem total_append (a b : List (Op χ)) : total (a ++ b) = total a + total b := by
  simp [total]

theorem total_erase (l : List (Op χ)) (i : Nat) (o : Op χ) (h : l[i]? = some o) :
    total l = o.xs.length + total (l.eraseIdx i) ∧ l.length = (l.eraseIdx i).length + 1 := by
  induction l generalizing i with
  | nil => simp at h
  | cons a l ih =>
    cases i with
    | zero =>
      simp only [List.getElem?_cons_zero, Option.some.injEq] at h
      subst h
      simp [total_cons]
    | succ i =>
      simp only [List.getElem?_cons_succ] at h
      have := ih i h
      simp only [List.eraseIdx_cons_succ, total_cons, List.length_cons]
      omega

/-- What is left to do. -/
def Port.wt (p : Port χ ρ) : Nat :=
  4 * p.m.wrappers.length + 5 * total p.m.wrappers + 3 * p.m.queue.length + 5 * total p.m.queue + 4 * p.m.rem.length +
    3 * p.req.length + 2 * p.rsp.length + p.m.bch.length + 2 * p.m.respQ.length + p.m.respCur.toList.length

/-- Every piece of a coroutine that does anything leaves less to do. -/
theorem Port.decreases (f : χ → σ → ρ × σ) (p : Port χ ρ) (mem : σ) (e : PortEv χ ρ) (he : e.progress = true) :
    p.step f mem e = (p, mem) ∨ (p.step f mem e).1.wt < p.wt := by
  cases e with
  | reset v => simp [PortEv.progress] at he
  | serve =>
    simp only [Port.step]
    cases hq : p.req with
    | nil => exact .inl rfl
    | cons x rest =>
      right
      simp only [Port.wt, hq, List.length_append, List.length_cons, List.length_nil]
      omega
  | deliver =>
    simp only [Port.step]
    cases hq : p.rsp with
    | nil => exact .inl rfl
    | cons r rest =>
      right
      simp only [Lite.step, Lite.resp]
      split <;> simp only [Port.wt, hq, List.length_append, List.length_cons, List.length_nil, Lite.rem] <;> omega
  | send =>
    simp only [Port.step]
    split
    · rename_i op x rm hr hc
      right
      simp only [Lite.step, Lite.send, hr, hc]
      simp only [Port.wt, Lite.rem, hc, List.length_append, List.length_cons, List.length_nil, Option.map_some, Option.getD_some]
      cases rm with
      | nil => simp; omega
      | cons y rm => simp; omega
    · exact .inl rfl
  | master e =>
    simp only [Port.step]
    cases e with
    | write op => simp [PortEv.progress] at he
    | init op => simp [PortEv.progress] at he
    | reset v => simp [PortEv.progress, own] at he
    | send => simp [PortEv.progress, own] at he
    | resp r => simp [PortEv.progress, own] at he
    | runInit i =>
      simp only [own, if_true, Lite.step]
      cases hw : p.m.wrappers[i]? with
      | none => exact .inl rfl
      | some op =>
        right
        obtain ⟨h1, h2⟩ := total_erase _ _ _ hw
        have h3 : total [op] = op.xs.length := by simp [total]
        simp only [Port.wt, Lite.write, Lite.rem, total_append, List.length_append, List.length_cons, List.length_nil, h3]
        omega
    | take =>
      simp only [own, if_true, Lite.step, Lite.take]
      split
      · rename_i op rest hr hc hq
        right
        simp only [Port.wt, Lite.rem, hc, hq, total_cons, List.length_append, List.length_cons, List.length_nil,
          Option.map_none, Option.getD_none]
        cases hx : op.xs with
        | nil => simp; omega
        | cons y ys => simp; omega
      · exact .inl rfl
    | respTake =>
      simp only [own, if_true, Lite.step, Lite.respTake]
      split
      · rename_i op rest hr hc hq
        right
        simp only [Port.wt, Lite.rem, hc, hq, List.length_cons, Option.toList, List.length_nil]
        omega
      · exact .inl rfl
    | respGet =>
      simp only [own, if_true, Lite.step, Lite.respGet]
      split
      · rename_i op rm got r rest hr hc hq
        right
        simp only [Port.wt, Lite.rem, hc, hq, List.length_cons, Option.toList, List.length_nil]
        omega
      · exact .inl rfl
    | respDone =>
      simp only [own, if_true, Lite.step, Lite.respDone]
      split
      · rename_i op got hr hc
        right
        simp only [Port.wt, Lite.rem, hc, List.length_cons, Option.toList, List.length_nil]
        omega
      · exact .inl rfl

/-- If no piece of a coroutine does anything, nothing is left to do. -/
theorem PInv.quiet {f : χ → σ → ρ × σ} {p : Nat → Port χ ρ} {μ : Nat → σ} {n : Nat} {sv : List (Served χ ρ)}
    (h : PInv f p μ n sv) (hr : (p n).m.running = true) (mem : σ)
    (hq : ∀ e : PortEv χ ρ, e.progress = true → (p n).step f mem e = (p n, mem)) :
    (p n).m.pend = [] ∧ (p n).m.wrappers = [] := by
  generalize hs : p n = s at hr hq
  have q : ∀ e : PortEv χ ρ, e.progress = true → (s.step f mem e).1 = s := fun e he => by rw [hq e he]
  have hreq : s.req = [] := by
    cases hx : s.req with
    | nil => rfl
    | cons x rest =>
      have := congrArg (fun p => p.req.length) (q .serve rfl)
      simp [Port.step, hx] at this
  have hrsp : s.rsp = [] := by
    cases hx : s.rsp with
    | nil => rfl
    | cons x rest =>
      have := congrArg (fun p => p.rsp.length) (q .deliver rfl)
      simp [Port.step, hx] at this
  have hcur : s.m.cur = none := by
    cases hx : s.m.cur with
    | none => rfl
    | some c =>
      obtain ⟨op, rm⟩ := c
      have h1 := (h.inv.cur op rm (by rw [hs, hx])).1
      cases rm with
      | nil => exact absurd rfl h1
      | cons x rm =>
        have := congrArg (fun p => p.req.length) (q .send rfl)
        simp [Port.step, hr, hx] at this
  have hqueue : s.m.queue = [] := by
    cases hx : s.m.queue with
    | nil => rfl
    | cons op rest =>
      have := congrArg (fun p => p.m.queue.length) (q (.master .take) rfl)
      simp [Port.step, own, Lite.step, Lite.take, hr, hx, hcur] at this
  have hwr : s.m.wrappers = [] := by
    cases hx : s.m.wrappers with
    | nil => rfl
    | cons op rest =>
      have := congrArg (fun p => p.m.wrappers.length) (q (.master (.runInit 0)) rfl)
      simp [Port.step, own, Lite.step, hx, Lite.write] at this
  have hlen : s.m.sent.length = s.m.arrived.length := by
    have h1 := congrArg List.length h.sent
    have h2 := congrArg List.length h.arr
    rw [hs] at h1 h2
    simp only [hreq, hrsp, List.length_append, List.length_map, List.length_nil] at h1 h2
    omega
  have hI := h.inv
  rw [hs] at hI
  have hd := hI.done_length
  rw [labels_length] at hd
  have hsent := congrArg List.length hI.sent
  have harr := congrArg List.length hI.arrived
  simp only [Lite.rem, hcur, Lite.started, Lite.got, List.flatMap_append, List.length_append, Option.map_none, Option.getD_none,
    List.length_nil] at hsent harr
  refine ⟨?_, hwr⟩
  simp only [Lite.pend, hqueue, List.append_nil]
  cases hc : s.m.respCur with
  | none =>
    cases hx : s.m.respQ with
    | nil => simp [Lite.respOps, hc, hx]
    | cons op rest =>
      have := congrArg (fun p => p.m.respQ.length) (q (.master .respTake) rfl)
      simp [Port.step, own, Lite.step, Lite.respTake, hr, hx, hc] at this
  | some c =>
    obtain ⟨op, rm, got⟩ := c
    exfalso
    cases rm with
    | zero =>
      have := congrArg (fun p => p.m.respCur) (q (.master .respDone) rfl)
      simp [Port.step, own, Lite.step, Lite.respDone, hr, hc] at this
    | succ rm =>
      have hb : s.m.bch = [] := by
        cases hx : s.m.bch with
        | nil => rfl
        | cons r rest =>
          have := congrArg (fun p => p.m.bch.length) (q (.master .respGet) rfl)
          simp [Port.step, own, Lite.step, Lite.respGet, hr, hx, hc] at this
      have hl := hI.curLen op _ got hc
      simp only [Lite.respOps, hc, hb, Option.map_some, Option.toList_some, List.flatMap_append, List.flatMap_cons,
        List.flatMap_nil, List.length_append, List.length_nil, Option.getD_some] at hsent harr
      omega

end Verif.LiteOps
