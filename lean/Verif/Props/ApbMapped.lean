import Verif.Proof.ApbMapped
import Verif.Props.Mapped

/-!
# C109, C110: an APB master connected to an APB slave on a target with an address map

`Spec/ApbMapped.lean` says what calls should do on such a target; which targets these are is `Props/Mapped.lean`.
-/

namespace Verif.Apb
open Word Master

variable {σ κ : Type}

/-- The hypotheses on a history: the target has the address map `f`, and all operations come from accepted calls. -/
structure MapCalls (c : Cfg) (slverr : Bool) (t : Target σ) (s0 : σ) (evs : List Ev) (good : σ → Prop) (f : Nat → Option κ)
    (val : σ → κ → UInt8) (call : Nat → Call) : Prop where
  lanes : 0 < c.lanes
  map : Mapped t good f val
  init : good s0
  made : ∀ op ∈ (Sys.exec slverr (access t c.lanes true) s0 evs).m.issued, (call op.key).makes c op

variable {c : Cfg} {slverr : Bool} {t : Target σ} {s0 : σ} {good : σ → Prop} {f : Nat → Option κ} {val : σ → κ → UInt8}
  {call : Nat → Call}

theorem MapCalls.prefix {evs : List Ev} {e : Ev} (h : MapCalls c slverr t s0 (evs ++ [e]) good f val call) :
    MapCalls c slverr t s0 evs good f val call := by
  refine ⟨h.lanes, h.map, h.init, fun op ho => h.made op ?_⟩
  obtain ⟨e', h1, _⟩ := sys_master slverr (access t c.lanes true) (Sys.exec slverr (access t c.lanes true) s0 evs) e
  have : (Sys.exec slverr (access t c.lanes true) s0 (evs ++ [e])).m =
      (Sys.exec slverr (access t c.lanes true) s0 evs).m.step slverr e' := by
    rw [← h1, Sys.exec, List.foldl_append]; rfl
  rw [this]
  exact (issued_step slverr _ e').subset ho

theorem mapped_of {y : Sys σ} (hl : 0 < c.lanes) (M : Mapped t good f val) (h : y.Inv slverr (access t c.lanes true))
    (hb : good y.base.1) (hmade : ∀ op ∈ y.m.epoch, (call op.key).makes c op) :
    good y.s.mem ∧ ∃ (os : List Outcome) (v : κ → UInt8),
      y.m.done.map (fun d => (call d.1.key).outcome c d.2) = os.map some ∧
      Runs c slverr f ((y.m.done.map fun d => call d.1.key).zip os) (val y.base.1) v ∧
      ∀ x, val y.s.mem x = v x ∨ ∃ op ∈ y.m.active, ∃ b, f b = some x ∧ (call op.key).stores b = some (val y.s.mem x) := by
  obtain ⟨pre, h1, h2, h3, h4⟩ := h.parts
  have hep := h.m.book.epoch
  obtain ⟨l, st1, pd1, os, e1, e2, e3, e4⟩ := serial_mapped M c hl slverr call (y.m.done.map (·.1)) y.base.1 y.base.2 hb
    (fun op ho => hmade op (by rw [hep]; exact List.mem_append_left _ ho))
  have e1' : serial slverr (access t c.lanes true) (y.m.done.map (·.1)) y.base = (l, (st1, pd1)) := e1
  have hle : y.m.done = l := by rw [e1'] at h2; exact (congrArg Prod.fst h2).symm
  rw [e1'] at h3
  rw [← hle] at e3 e4
  have hmem : y.s.mem = (serveAll slverr (access t c.lanes true) pre (st1, pd1)).2.1 := congrArg Prod.fst h3
  rcases active_cases y.m with ha | ⟨op, ha⟩
  · rw [ha] at h4
    have hp : pre = [] := by simpa using h4
    subst hp
    rw [hmem]
    exact ⟨e2, os, val st1, e3, e4, fun x => .inl rfl⟩
  · rw [ha] at h4
    simp only [List.flatMap_cons, List.flatMap_nil, List.append_nil] at h4
    obtain ⟨k1, k2⟩ := serve_some M c hl slverr (call op.key) op (hmade op (by rw [hep, ha]; simp)) e2 pd1 pre h4
    rw [← hmem] at k1 k2
    refine ⟨k1, os, val st1, e3, e4, fun x => ?_⟩
    rcases k2 x with k | k
    · exact .inl k
    · exact .inr ⟨op, by rw [ha]; simp, k⟩

theorem exec_snoc (f : Access σ) (s0 : σ) (evs : List Ev) (e : Ev) :
    Sys.exec slverr f s0 (evs ++ [e]) = (Sys.exec slverr f s0 evs).step slverr f e := by
  rw [Sys.exec, List.foldl_append]; rfl

theorem MapCalls.sound {evs : List Ev} (H : MapCalls c slverr t s0 evs good f val call) :
    let y := Sys.exec slverr (access t c.lanes true) s0 evs
    good y.base.1 ∧ good y.s.mem ∧ ∃ (os : List Outcome) (v : κ → UInt8),
      y.m.done.map (fun d => (call d.1.key).outcome c d.2) = os.map some ∧
      Runs c slverr f ((y.m.done.map fun d => call d.1.key).zip os) (val y.base.1) v ∧
      ∀ x, val y.s.mem x = v x ∨ ∃ op ∈ y.m.active, ∃ b, f b = some x ∧ (call op.key).stores b = some (val y.s.mem x) := by
  have fin : ∀ (evs : List Ev) (_ : MapCalls c slverr t s0 evs good f val call),
      let y := Sys.exec slverr (access t c.lanes true) s0 evs
      good y.base.1 → good y.s.mem ∧ ∃ (os : List Outcome) (v : κ → UInt8),
      y.m.done.map (fun d => (call d.1.key).outcome c d.2) = os.map some ∧
      Runs c slverr f ((y.m.done.map fun d => call d.1.key).zip os) (val y.base.1) v ∧
      ∀ x, val y.s.mem x = v x ∨ ∃ op ∈ y.m.active, ∃ b, f b = some x ∧ (call op.key).stores b = some (val y.s.mem x) := by
    intro evs H y hb
    have hI : y.Inv slverr (access t c.lanes true) := Sys.exec_inv slverr _ s0 evs
    exact mapped_of H.lanes H.map hI hb fun op ho => H.made op (epoch_issued hI.m op ho)
  have hbase : ∀ (k : Nat) (evs : List Ev), evs.length = k → MapCalls c slverr t s0 evs good f val call →
      good (Sys.exec slverr (access t c.lanes true) s0 evs).base.1 := by
    intro k
    induction k with
    | zero =>
      intro evs hk H
      rw [List.length_eq_zero_iff.1 hk]
      exact H.init
    | succ k ih =>
      intro evs hk H
      have hs : evs = evs.take k ++ [evs[k]] := by
        rw [← List.take_succ_eq_append_getElem (by omega), List.take_of_length_le (by omega)]
      generalize evs.take k = pre at hs
      generalize evs[k] = e at hs
      subst hs
      have hpl : pre.length = k := by simpa using hk
      have ih := ih pre hpl H.prefix
      rw [exec_snoc]
      cases e with
      | reset v =>
        cases v with
        | true => exact (fin pre H.prefix ih).1
        | false => exact ih
      | _ => exact ih
  exact ⟨hbase _ evs rfl H, fin evs H (hbase _ evs rfl H)⟩

/-- **C109, results and contents at any instant.** Whatever the schedule of calls, pauses, slow accesses and resets: the callers whose
operations completed since the last reset got what the calls, executed one after the other, should return; and the contents of the
cells are what these calls should lead to from the contents at that reset, except that the operation under way may have stored
some of its bytes. -/
theorem C109_results {evs : List Ev} (H : MapCalls c slverr t s0 evs good f val call) :
    let y := Sys.exec slverr (access t c.lanes true) s0 evs
    ∃ (os : List Outcome) (v : κ → UInt8), y.m.done.map (fun d => (call d.1.key).outcome c d.2) = os.map some ∧
      Runs c slverr f ((y.m.done.map fun d => call d.1.key).zip os) (val y.base.1) v ∧
      ∀ x, val y.s.mem x = v x ∨ ∃ op ∈ y.m.active, ∃ b, f b = some x ∧ (call op.key).stores b = some (val y.s.mem x) :=
  H.sound.2.2

/-- **C109, at rest.** When no operation is in flight, all calls made since the last reset have returned, and the contents of the cells are
what they should lead to. -/
theorem C109_rest {evs : List Ev} (H : MapCalls c slverr t s0 evs good f val call) :
    let y := Sys.exec slverr (access t c.lanes true) s0 evs
    y.m.idle = true → y.m.done.map (·.1) = y.m.epoch ∧
      ∃ os : List Outcome, y.m.done.map (fun d => (call d.1.key).outcome c d.2) = os.map some ∧
        Runs c slverr f ((y.m.done.map fun d => call d.1.key).zip os) (val y.base.1) (val y.s.mem) := by
  intro y hidle
  obtain ⟨os, v, h1, h2, h3⟩ := C109_results H
  have hI : y.Inv slverr (access t c.lanes true) := Sys.exec_inv slverr _ s0 evs
  have hfl := hI.m.book.flight
  simp only [idle, decide_eq_true_eq] at hidle
  have hz : y.m.active ++ y.m.queue = [] := by
    apply List.length_eq_zero_iff.1; omega
  have ha : y.m.active = [] := (List.append_eq_nil_iff.1 hz).1
  have hep := hI.m.book.epoch
  rw [hz, List.append_nil] at hep
  have hv : val y.s.mem = v := by
    funext x
    rcases h3 x with h | ⟨op, hop, _⟩
    · exact h
    · have hop' : op ∈ y.m.active := hop
      rw [ha] at hop'
      cases hop'
  refine ⟨hep.symm, os, h1, ?_⟩
  rw [hv]; exact h2

/-! ## Consequences -/

theorem Runs.append : ∀ {l r : List (Call × Outcome)} {v v' : κ → UInt8},
    Runs c slverr f (l ++ r) v v' ↔ ∃ w, Runs c slverr f l v w ∧ Runs c slverr f r w v'
  | [], r, v, v' => by simp [Runs]
  | (a, o) :: l, r, v, v' => by
    simp only [List.cons_append, Runs]
    constructor
    · rintro ⟨v1, h1, h2, h3⟩
      obtain ⟨w, h4, h5⟩ := Runs.append.1 h3
      exact ⟨w, ⟨v1, h1, h2, h4⟩, h5⟩
    · rintro ⟨w, ⟨v1, h1, h2, h4⟩, h5⟩
      exact ⟨v1, h1, h2, Runs.append.2 ⟨w, h4, h5⟩⟩

/-- Calls that do not write to a cell leave it alone. -/
theorem Runs.keeps {b : Nat} {x : κ} (M : Mapped t good f val) (hx : f b = some x) :
    ∀ {l : List (Call × Outcome)} {v v' : κ → UInt8}, Runs c slverr f l v v' → (∀ a ∈ l, a.1.stores b = none) → v' x = v x
  | [], v, v', h, _ => by rw [show v' = v from h]
  | (a, o) :: l, v, v', h, hn => by
    obtain ⟨v1, _, h2, h3⟩ := h
    rw [Runs.keeps M hx h3 fun a ha => hn a (by simp [ha])]
    rcases h2.2 x with h | ⟨b', hb, hs⟩
    · exact h
    · rw [M.inj b' b x hb hx, hn (a, o) (by simp)] at hs; cases hs

theorem zip_split {α β γ : Type} {g : α → γ} {h : α → Option β} : ∀ {l1 l2 : List α} {os : List β},
    (l1 ++ l2).map h = os.map some → ∃ o1 o2, os = o1 ++ o2 ∧ l1.map h = o1.map some ∧ l2.map h = o2.map some ∧
      ((l1 ++ l2).map g).zip os = (l1.map g).zip o1 ++ (l2.map g).zip o2
  | [], l2, os, hm => ⟨[], os, rfl, rfl, hm, by simp⟩
  | a :: l1, l2, [], hm => by simp at hm
  | a :: l1, l2, o :: os, hm => by
    simp only [List.cons_append, List.map_cons, List.cons.injEq] at hm
    obtain ⟨o1, o2, h1, h2, h3, h4⟩ := zip_split (g := g) hm.2
    refine ⟨o :: o1, o2, by rw [h1]; rfl, by simp [hm.1, h2], h3, ?_⟩
    simp only [List.cons_append, List.map_cons, List.zip_cons_cons, h4]

/-- **C109, a read returns what was written.** A completed read returns the byte of the last completed write to the address before it,
if this and the bus word are mapped - whatever failed in between. -/
theorem C109_read_your_writes {evs : List Ev} (H : MapCalls c slverr t s0 evs good f val call)
    (l1 l2 l3 : List (Op × List Rsp)) (w r : Op) (ws rs : List Rsp)
    (hd : (Sys.exec slverr (access t c.lanes true) s0 evs).m.done = l1 ++ (w, ws) :: l2 ++ (r, rs) :: l3)
    (b : Nat) (u : UInt8) (hw : (call w.key).stores b = some u) (hm : (call w.key).XferMapped c f b) (hwm : WordMapped c f b)
    (hl2 : ∀ d ∈ l2, (call d.1.key).stores b = none)
    (a n p : Int) (hr : call r.key = .read a n p) (hb1 : a.toNat ≤ b) (hb2 : b < a.toNat + n.toNat) :
    ∃ data resp, (call r.key).outcome c rs = some (.data data resp) ∧ data[b - a.toNat]? = some u := by
  obtain ⟨os, v, h1, h2, _⟩ := C109_results H
  rw [hd] at h1 h2
  obtain ⟨o1, o2, rfl, e1, e2, e3⟩ := zip_split (g := fun d : Op × List Rsp => call d.1.key) h1
  rw [e3] at h2
  obtain ⟨v1, g1, g2⟩ := Runs.append.1 h2
  obtain ⟨o11, o12, rfl, e4, e5, e6⟩ := zip_split (g := fun d : Op × List Rsp => call d.1.key) e1
  rw [e6] at g1
  obtain ⟨v2, g3, g4⟩ := Runs.append.1 g1
  cases o12 with
  | nil => simp at e5
  | cons o o12 =>
  cases o2 with
  | nil => simp at e2
  | cons ro o2 =>
  simp only [List.map_cons, List.cons.injEq] at e2 e5
  obtain ⟨v3, g5, g6, g7⟩ := g4
  obtain ⟨v4, g8, _⟩ := g2
  obtain ⟨x, hx⟩ := Option.ne_none_iff_exists'.1 (hwm b rfl)
  have k1 : v3 x = u := by
    have := g6.1 b x hx (by rw [hw]; simp) hm
    rw [hw] at this
    exact (Option.some.inj this).symm
  have k2 : v1 x = v3 x := Runs.keeps H.map hx g7 fun d hd' => by
    have := (List.of_mem_zip hd').1
    obtain ⟨d', hd', hde⟩ := List.mem_map.1 this
    rw [← hde]
    exact hl2 d' hd'
  simp only [hr] at g8
  obtain ⟨data, resp, q1, q2, _, _, q5⟩ := g8
  refine ⟨data, resp, by rw [e2.1, q1], ?_⟩
  have := (q5 (b - a.toNat) (by omega)).1 (by rwa [show a.toNat + (b - a.toNat) = b by omega]) x
    (by rwa [show a.toNat + (b - a.toNat) = b by omega])
  rw [this, k2, k1]

/-- **C109, the last write prevails.** When no operation is in flight, a cell holds the byte of the last write to it since the last
reset, if the addresses that this writes in the same bus word are mapped. -/
theorem C109_last_write {evs : List Ev} (H : MapCalls c slverr t s0 evs good f val call)
    (hidle : (Sys.exec slverr (access t c.lanes true) s0 evs).m.idle = true)
    (l1 l2 : List Op) (w : Op) (he : (Sys.exec slverr (access t c.lanes true) s0 evs).m.epoch = l1 ++ w :: l2)
    (b : Nat) (x : κ) (hx : f b = some x) (u : UInt8) (hw : (call w.key).stores b = some u) (hm : (call w.key).XferMapped c f b)
    (hl2 : ∀ op ∈ l2, (call op.key).stores b = none) :
    val (Sys.exec slverr (access t c.lanes true) s0 evs).s.mem x = u := by
  obtain ⟨h0, os, h1, h2⟩ := C109_rest H hidle
  rw [he] at h0
  obtain ⟨d1, dr, hd, q1, q2⟩ := List.map_eq_append_iff.1 h0
  obtain ⟨⟨w', ws⟩, d2, rfl, rfl, q4⟩ := List.map_eq_cons_iff.1 q2
  rw [hd] at h1 h2
  obtain ⟨o1, o2, rfl, e1, e2, e3⟩ := zip_split (g := fun d : Op × List Rsp => call d.1.key) h1
  rw [e3] at h2
  obtain ⟨v1, g1, g2⟩ := Runs.append.1 h2
  cases o2 with
  | nil => simp at e2
  | cons o o2 =>
  obtain ⟨v2, g3, g4, g5⟩ := g2
  have k1 : v2 x = u := by
    have := g4.1 b x hx (by rw [hw]; simp) hm
    rw [hw] at this
    exact (Option.some.inj this).symm
  rw [← k1]
  refine Runs.keeps H.map hx g5 fun d hd' => ?_
  have := (List.of_mem_zip hd').1
  obtain ⟨d', hd', hde⟩ := List.mem_map.1 this
  rw [← hde]
  exact hl2 d'.1 (q4 ▸ List.mem_map.2 ⟨d', hd', rfl⟩)

/-- **C109, nothing else.** A cell that no call ever writes to keeps its initial contents, whatever happens (resets included). -/
theorem C109_untouched {evs : List Ev} (H : MapCalls c slverr t s0 evs good f val call) (x : κ)
    (hn : ∀ op ∈ (Sys.exec slverr (access t c.lanes true) s0 evs).m.issued, ∀ b, f b = some x → (call op.key).stores b = none) :
    val (Sys.exec slverr (access t c.lanes true) s0 evs).s.mem x = val s0 x := by
  have keeps : ∀ {l : List (Call × Outcome)} {v v' : κ → UInt8}, Runs c slverr f l v v' →
      (∀ a ∈ l, ∀ b, f b = some x → a.1.stores b = none) → v' x = v x := by
    intro l
    induction l with
    | nil => intro v v' h _; rw [show v' = v from h]
    | cons a l ih =>
      intro v v' h hn
      obtain ⟨v1, _, h2, h3⟩ := h
      rw [ih h3 fun a ha => hn a (by simp [ha])]
      rcases h2.2 x with h | ⟨b', hb, hs⟩
      · exact h
      · rw [hn _ (List.mem_cons_self ..) b' hb] at hs; cases hs
  have one : ∀ (evs : List Ev) (_ : MapCalls c slverr t s0 evs good f val call),
      (∀ op ∈ (Sys.exec slverr (access t c.lanes true) s0 evs).m.issued, ∀ b, f b = some x → (call op.key).stores b = none) →
      val (Sys.exec slverr (access t c.lanes true) s0 evs).s.mem x =
        val (Sys.exec slverr (access t c.lanes true) s0 evs).base.1 x := by
    intro evs H hn
    have hI := Sys.exec_inv slverr (access t c.lanes true) s0 evs
    obtain ⟨os, v, _, h2, h3⟩ := C109_results H
    have hep := hI.m.book.epoch
    rcases h3 x with h | ⟨op, hop, b, hb, hs⟩
    · rw [h]
      refine keeps h2 fun a ha => ?_
      obtain ⟨d, hd, hde⟩ := List.mem_map.1 (List.of_mem_zip ha).1
      rw [← hde]
      refine hn d.1 (epoch_issued hI.m _ ?_)
      rw [hep]
      exact List.mem_append_left _ (List.mem_map.2 ⟨d, hd, rfl⟩)
    · rw [hn op (epoch_issued hI.m _ (by rw [hep]; simp [hop])) b hb] at hs
      cases hs
  obtain ⟨k, hk⟩ : ∃ k, evs.length = k := ⟨_, rfl⟩
  have base : val (Sys.exec slverr (access t c.lanes true) s0 evs).base.1 x = val s0 x := by
    induction k generalizing evs with
    | zero => rw [List.length_eq_zero_iff.1 hk]; rfl
    | succ k ih =>
      have hs : evs = evs.take k ++ [evs[k]] := by
        rw [← List.take_succ_eq_append_getElem (by omega), List.take_of_length_le (by omega)]
      generalize evs.take k = pre at hs
      generalize evs[k] = e at hs
      subst hs
      have hpl : pre.length = k := by simpa using hk
      have hn' : ∀ op ∈ (Sys.exec slverr (access t c.lanes true) s0 pre).m.issued, ∀ b, f b = some x →
          (call op.key).stores b = none := by
        intro op ho
        refine hn op ?_
        obtain ⟨e', h1, _⟩ := sys_master slverr (access t c.lanes true) (Sys.exec slverr (access t c.lanes true) s0 pre) e
        rw [exec_snoc, h1]
        exact (issued_step slverr _ e').subset ho
      have ih := ih H.prefix hn' hpl
      rw [exec_snoc]
      cases e with
      | reset v =>
        cases v with
        | true => exact (one pre H.prefix hn').trans ih
        | false => exact ih
      | _ => exact ih
  rw [one evs H hn, base]

/-- **C110, as far as it holds.** Full statement: a completed read of mapped addresses returns OKAY and the contents. Proved if the map
consists of entire bus words; false otherwise (`C110_violated`). -/
theorem C110_mapped_read_partial {evs : List Ev} (H : MapCalls c slverr t s0 evs good f val call)
    (hwords : ∀ x y, x / c.lanes = y / c.lanes → f x ≠ none → f y ≠ none)
    (l1 l2 : List (Op × List Rsp)) (r : Op) (rs : List Rsp)
    (hd : (Sys.exec slverr (access t c.lanes true) s0 evs).m.done = l1 ++ (r, rs) :: l2)
    (a n p : Int) (hr : call r.key = .read a n p) (hn : 0 < n) (hmap : ∀ i < n.toNat, f (a.toNat + i) ≠ none) :
    ∃ (data : Bytes) (os : List Outcome) (v : κ → UInt8), (call r.key).outcome c rs = some (.data data .okay) ∧
      data.length = n.toNat ∧
      l1.map (fun d => (call d.1.key).outcome c d.2) = os.map some ∧
      Runs c slverr f ((l1.map fun d => call d.1.key).zip os)
        (val (Sys.exec slverr (access t c.lanes true) s0 evs).base.1) v ∧
      ∀ i < n.toNat, ∀ x, f (a.toNat + i) = some x → data[i]? = some (v x) := by
  obtain ⟨os, v, h1, h2, _⟩ := C109_results H
  rw [hd] at h1 h2
  obtain ⟨o1, o2, rfl, e1, e2, e3⟩ := zip_split (g := fun d : Op × List Rsp => call d.1.key) h1
  rw [e3] at h2
  obtain ⟨v1, g1, g2⟩ := Runs.append.1 h2
  cases o2 with
  | nil => simp at e2
  | cons ro o2 =>
  simp only [List.map_cons, List.cons.injEq] at e2
  obtain ⟨v2, g3, _⟩ := g2
  simp only [hr] at g3
  obtain ⟨data, resp, q1, q2, _, q4, q5⟩ := g3
  have hw : ∀ i < n.toNat, WordMapped c f (a.toNat + i) := fun i hi y hy => hwords _ y hy.symm (hmap i hi)
  have hok : resp = .okay := (q4 hn).2 (.inr hw)
  exact ⟨data, o1, v1, by rw [e2.1, q1, hok], q2, e1, g1, fun i hi => (q5 i hi).1 (hw i hi)⟩

/-! ## A concrete history

The address space `exSpace` of `Props/Mapped.lean` (two memories and a hole from 8 on), a 4 byte wide bus: `write(6, [1, 2, 3, 4])`, which
runs into the hole, `write(4, [5])` and `read(5, 5)`. -/

section example_

open Verif.AddressSpace (exSpace exHeap exMap exS)

def mapC : Cfg := { lanes := 4, addrWidth := 16 }
def mapT : Target Heap := Target.ofIface exSpace.toIface
def mapCall : Nat → Call
  | 0 => .write 6 [1, 2, 3, 4] 2
  | 1 => .write 4 [5] 2
  | _ => .read 5 5 2
def mapOp0 : Op := ⟨0, [.write ⟨6, 2, 0x02010000, 12⟩, .write ⟨8, 2, 0x0403, 3⟩]⟩
def mapOp1 : Op := ⟨1, [.write ⟨4, 2, 5, 1⟩]⟩
def mapOp2 : Op := ⟨2, [.read ⟨5, 2⟩, .read ⟨8, 2⟩]⟩
def mapEvs : List Ev :=
  [.reset false, .edge false false false, .call mapOp0, .call mapOp1, .call mapOp2, .resume, .edge true false false,
   .edge false true false, .edge false false true] ++ List.replicate 20 (.edge false false false)

theorem mapRuns : (Sys.exec true (access mapT mapC.lanes true) exHeap mapEvs).m.issued = [mapOp0, mapOp1, mapOp2] ∧
    (Sys.exec true (access mapT mapC.lanes true) exHeap mapEvs).m.idle = true ∧
    (Sys.exec true (access mapT mapC.lanes true) exHeap mapEvs).m.epoch = [mapOp0, mapOp1, mapOp2] ∧
    (Sys.exec true (access mapT mapC.lanes true) exHeap mapEvs).m.done =
      [(mapOp0, [(0, .okay), (0, .slverr)]), (mapOp1, [(0, .okay)]), (mapOp2, [(0x02010705, .okay), (0, .slverr)])] := by
  refine ⟨?_, ?_, ?_, ?_⟩ <;> decide +kernel

theorem mapCalls : MapCalls mapC true mapT exHeap mapEvs (Good exS) exMap cell mapCall := by
  refine ⟨by decide, AddressSpace.exMapped, AddressSpace.exGood, ?_⟩
  rw [mapRuns.1]
  intro op hop
  simp only [List.mem_cons, List.not_mem_nil, or_false] at hop
  rcases hop with rfl | rfl | rfl
  · exact ⟨⟨6, 4, 2⟩, _, rfl, rfl, rfl⟩
  · exact ⟨⟨4, 1, 2⟩, _, rfl, rfl, rfl⟩
  · exact ⟨⟨5, 5, 2⟩, rfl, rfl⟩

theorem mapWord (b : Nat) (hb : b < 8) : WordMapped mapC exMap b := by
  intro y hy h
  simp only [exMap] at h
  split at h
  · cases h
  · simp only [mapC] at hy
    omega

/-- C109 applies to address 7, although both the write and the read failed. -/
example : ∃ data resp, (mapCall 2).outcome mapC [(0x02010705, .okay), (0, .slverr)] = some (.data data resp) ∧ data[2]? = some 2 :=
  C109_read_your_writes mapCalls [] [(mapOp1, [(0, .okay)])] [] mapOp0 mapOp2 [(0, .okay), (0, .slverr)] _ mapRuns.2.2.2 7 2 rfl
    (fun y _ hy => mapWord 7 (by omega) y hy) (mapWord 7 (by omega)) (by simp; rfl) 5 5 2 rfl (by decide) (by decide)

/-- … and to address 4, written by the second write, and to the first memory, which is not touched. -/
example : cell (Sys.exec true (access mapT mapC.lanes true) exHeap mapEvs).s.mem (1, 0) = 5 ∧
    cell (Sys.exec true (access mapT mapC.lanes true) exHeap mapEvs).s.mem (0, 0) = cell exHeap (0, 0) := by
  constructor
  · exact C109_last_write mapCalls mapRuns.2.1 [mapOp0] [mapOp2] mapOp1 mapRuns.2.2.1 4 (1, 0) rfl 5 rfl
      (fun y _ hy => mapWord 4 (by omega) y hy) (by simp; rfl)
  · refine C109_untouched mapCalls (0, 0) ?_
    rw [mapRuns.1]
    intro op hop b hb
    have hb0 : b = 0 := AddressSpace.exMapped.inj b 0 _ hb rfl
    subst hb0
    simp only [List.mem_cons, List.not_mem_nil, or_false] at hop
    rcases hop with rfl | rfl | rfl <;> rfl

/-- **C110 is false of the code**: a memory region of 6 bytes on a bus of 4 byte lanes. The addresses 4 and 5 are mapped, the write to
them returns OKAY and is stored, and then the read of them returns SLVERR and zeros. -/
theorem C110_violated : ∃ (c : Cfg) (call : Nat → Call) (size : Nat) (h0 : Heap) (evs : List Ev) (w r : Op) (ws rs : List Rsp),
    let t := Target.ofIface (memoryRegion size none 0)
    let f : Nat → Option (Nat × Nat) := fun x => if x < size then some (0, x) else none
    MapCalls c true t h0 evs (Good fun _ => (false, size)) f cell call ∧
    call w.key = .write 4 [1, 2] 2 ∧ call r.key = .read 4 2 2 ∧ (∀ i < 2, f (4 + i) ≠ none) ∧
    (Sys.exec true (access t c.lanes true) h0 evs).m.done = [(w, ws), (r, rs)] ∧
    cell (Sys.exec true (access t c.lanes true) h0 evs).s.mem (0, 4) = 1 ∧
    cell (Sys.exec true (access t c.lanes true) h0 evs).s.mem (0, 5) = 2 ∧
    (call w.key).outcome c ws = some (.written .okay) ∧
    (call r.key).outcome c rs = some (.data [0, 0] .slverr) := by
  refine ⟨mapC, fun k => if k = 0 then .write 4 [1, 2] 2 else .read 4 2 2, 6, fun _ => .buf (List.replicate 6 7),
    [.reset false, .edge false false false, .call ⟨0, [.write ⟨4, 2, 0x0201, 3⟩]⟩, .call ⟨1, [.read ⟨4, 2⟩]⟩, .resume] ++
      List.replicate 8 (.edge false false false), ⟨0, [.write ⟨4, 2, 0x0201, 3⟩]⟩, ⟨1, [.read ⟨4, 2⟩]⟩, [(0, .okay)], [(0, .slverr)], ?_⟩
  refine ⟨⟨by decide, ?_, ?_, ?_⟩, rfl, rfl, by decide, ?_, ?_, ?_, ?_, ?_⟩
  · exact (AddressSpace.C102_region (fun _ => (false, 6)) 6 none 0 (by decide)).1
  · exact fun k => ⟨⟨rfl, trivial⟩, rfl⟩
  · intro op hop
    have : (Sys.exec true (access (Target.ofIface (memoryRegion 6 none 0)) mapC.lanes true) (fun _ => .buf (List.replicate 6 7))
      ([.reset false, .edge false false false, .call ⟨0, [.write ⟨4, 2, 0x0201, 3⟩]⟩, .call ⟨1, [.read ⟨4, 2⟩]⟩, .resume] ++
      List.replicate 8 (.edge false false false))).m.issued = [⟨0, [.write ⟨4, 2, 0x0201, 3⟩]⟩, ⟨1, [.read ⟨4, 2⟩]⟩] := by
      decide +kernel
    rw [this] at hop
    simp only [List.mem_cons, List.not_mem_nil, or_false] at hop
    rcases hop with rfl | rfl
    · exact ⟨⟨4, 2, 2⟩, _, rfl, rfl, rfl⟩
    · exact ⟨⟨4, 2, 2⟩, rfl, rfl⟩
  all_goals decide +kernel

/-- **A failure that nobody hears of**: if `pslverr` is not connected, the same three calls all return OKAY, although two bytes were not
written and two of the bytes returned are not the contents of anything. -/
theorem C109_without_pslverr :
    let y := Sys.exec false (access mapT mapC.lanes true) exHeap mapEvs
    MapCalls mapC false mapT exHeap mapEvs (Good exS) exMap cell mapCall ∧ exMap 8 = none ∧
    y.m.done.map (fun d => (mapCall d.1.key).outcome mapC d.2) =
      [some (.written .okay), some (.written .okay), some (.data [7, 1, 2, 0, 0] .okay)] := by
  have h : (Sys.exec false (access mapT mapC.lanes true) exHeap mapEvs).m.issued = [mapOp0, mapOp1, mapOp2] := by decide +kernel
  refine ⟨⟨by decide, AddressSpace.exMapped, AddressSpace.exGood, ?_⟩, by decide, by decide +kernel⟩
  rw [h, ← mapRuns.1]
  exact mapCalls.made

end example_

end Verif.Apb
