import Verif.Proof.AxiGeom

/-!
# The slaves: address sequences, write service, read service
-/

namespace Verif.Axi

/-! ## Address stepping -/

theorem ABeat.nbytes_pos (a : ABeat) : 0 < a.nbytes := Nat.two_pow_pos _

theorem wrap_facts (a : ABeat) : ∃ j, a.aligned = a.wrapBoundary + j * a.nbytes ∧ j < a.beats := by
  have hn := a.nbytes_pos
  have hb : 0 < a.beats := Nat.succ_pos _
  refine ⟨a.addr / a.nbytes % a.beats, ?_, Nat.mod_lt _ hb⟩
  simp only [ABeat.aligned, ABeat.wrapBoundary]
  rw [← Nat.div_div_eq_div_mul]
  have := Nat.div_add_mod (a.addr / a.nbytes) a.beats
  conv => lhs; rw [← this]
  rw [Nat.add_mul, Nat.mul_comm a.beats, Nat.mul_assoc, Nat.mul_comm a.beats]

theorem beatAddr_step (a : ABeat) (n : Nat) (h : n < a.beats) :
    slaveNext a.burst a.nbytes a.wrapBoundary (a.wrapBoundary + a.nbytes * a.beats) (beatAddr a n) =
      beatAddr a (n + 1) := by
  obtain ⟨j, hj, hjb⟩ := wrap_facts a
  have hn := a.nbytes_pos
  have hcases : a.burst = .fixed ∨ a.burst = .incr ∨ a.burst = .wrap := by cases a.burst <;> simp
  simp only [slaveNext, beatAddr]
  rcases hcases with hb | hb | hb
  · simp [hb]
  · simp [hb, Nat.add_mul]; omega
  · simp only [hb, ne_eq, reduceCtorEq, not_false_eq_true, if_true, true_and, hj]
    have e1 : a.wrapBoundary + j * a.nbytes + n * a.nbytes = a.wrapBoundary + (j + n) * a.nbytes := by
      rw [Nat.add_mul]; omega
    have e2 : a.wrapBoundary + j * a.nbytes + (n + 1) * a.nbytes = a.wrapBoundary + (j + n + 1) * a.nbytes := by
      simp only [Nat.add_mul]; omega
    rw [e1, e2, Nat.mul_comm a.nbytes]
    have hc : ∀ x y : Nat, x * a.nbytes < y * a.nbytes ↔ x < y := fun x y => Nat.mul_lt_mul_right hn
    have hc' : ∀ x y : Nat, x * a.nbytes = y * a.nbytes ↔ x = y := fun x y =>
      ⟨fun h => Nat.eq_of_mul_eq_mul_right hn h, fun h => by rw [h]⟩
    have e3 : ∀ x, x * a.nbytes + a.nbytes = (x + 1) * a.nbytes := by intro x; rw [Nat.add_mul, Nat.one_mul]
    by_cases h1 : j + n < a.beats
    · have l1 : a.wrapBoundary + (j + n) * a.nbytes < a.wrapBoundary + a.beats * a.nbytes := by
        have := (hc (j + n) a.beats).2 h1; omega
      rw [if_pos l1, Nat.add_assoc, e3]
      by_cases h2 : j + n + 1 = a.beats
      · rw [if_pos (by rw [h2]), if_neg (by rw [h2]; omega), h2]; omega
      · have h3 : (j + n + 1) * a.nbytes < a.beats * a.nbytes := (hc _ _).2 (by omega)
        rw [if_neg (by omega), if_pos (by omega)]
    · have l1 : ¬ a.wrapBoundary + (j + n) * a.nbytes < a.wrapBoundary + a.beats * a.nbytes := by
        have := Nat.mul_le_mul_right a.nbytes (show a.beats ≤ j + n by omega); omega
      have l2 : ¬ a.wrapBoundary + (j + n + 1) * a.nbytes < a.wrapBoundary + a.beats * a.nbytes := by
        have := Nat.mul_le_mul_right a.nbytes (show a.beats ≤ j + n + 1 by omega); omega
      rw [if_neg l1, if_neg l2]
      have h4 := Nat.mul_le_mul_right a.nbytes (show a.beats ≤ j + n by omega)
      have h5 : (j + n + 1) * a.nbytes < (a.beats + a.beats) * a.nbytes := (hc _ _).2 (by omega)
      rw [Nat.add_mul a.beats] at h5
      have h6 := e3 (j + n)
      rw [if_neg (by omega)]
      omega

theorem beatAddr_zero (a : ABeat) : beatAddr a 0 = a.aligned := by
  obtain ⟨j, hj, hjb⟩ := wrap_facts a
  have := a.nbytes_pos
  simp only [beatAddr]
  cases a.burst with
  | fixed => rfl
  | incr => simp
  | wrap =>
    have : a.aligned < a.wrapBoundary + a.nbytes * a.beats := by
      rw [hj, Nat.mul_comm a.nbytes]
      have := (Nat.mul_lt_mul_right this).2 hjb
      omega
    simp [this]

/-! ## Writes -/

theorem performOps_attempt {σ : Type} (t : Target σ) (ops : List (Nat × Bytes)) (st : σ) :
    (performOps t ops st).2 = (attempt t.write ops st).2 ∧
      ((attempt t.write ops st).1 = true ↔ (performOps t ops st).1 = .ok ()) := by
  induction ops generalizing st with
  | nil => simp [performOps, attempt]
  | cons p ops ih =>
    obtain ⟨a, d⟩ := p
    simp only [performOps, attempt]
    rcases h : t.write a d st with ⟨r, st'⟩
    cases r with
    | error e => simp
    | ok u => exact ih st'

/-- The operation lists of the beats of a burst from beat `n`. -/
def beatOps (lanes : Nat) (strbPresent : Bool) (a : ABeat) : Nat → List WBeat → List (List (Nat × Bytes))
  | _, [] => []
  | n, w :: ws => writeOps lanes (beatWord lanes a n) (digitsLE lanes w.data)
      (if strbPresent then w.strb else 2 ^ lanes - 1) :: beatOps lanes strbPresent a (n + 1) ws

theorem beatOps_length (lanes : Nat) (sp : Bool) (a : ABeat) (n : Nat) (ws : List WBeat) :
    (beatOps lanes sp a n ws).length = ws.length := by
  induction ws generalizing n with
  | nil => rfl
  | cons w ws ih => simp [beatOps, ih]

theorem beatOps_getElem? (lanes : Nat) (sp : Bool) (a : ABeat) (n : Nat) (ws : List WBeat) (i : Nat) :
    (beatOps lanes sp a n ws)[i]? = ws[i]?.map fun w => writeOps lanes (beatWord lanes a (n + i))
      (digitsLE lanes w.data) (if sp then w.strb else 2 ^ lanes - 1) := by
  induction ws generalizing n i with
  | nil => simp [beatOps]
  | cons w ws ih =>
    cases i with
    | zero => simp [beatOps]
    | succ i => simp only [beatOps, List.getElem?_cons_succ, ih]; rw [show n + 1 + i = n + (i + 1) by omega]

theorem toBytes_little (lanes v : Nat) (h : v < 256 ^ lanes) :
    toBytes lanes .little v = .ok (digitsLE lanes v) := by
  unfold toBytes
  rw [if_neg (by omega)]
  rw [if_neg (by
    have : ((256 : Int) ^ lanes) = ((256 ^ lanes : Nat) : Int) := by simp
    omega)]
  simp

theorem slaveWriteBeats_spec {σ : Type} (t : Target σ) (lanes : Nat) (sp : Bool) (a : ABeat) :
    ∀ (rem n : Nat) (resp : Resp) (ws rest : List WBeat) (st : σ), n + rem = a.beats → ws.length = rem →
      (∀ w ∈ ws, w.data < 256 ^ lanes) →
      (∀ i w, ws[i]? = some w → w.last = decide (i + 1 = rem)) →
      slaveWriteBeats t lanes sp a.burst a.nbytes a.beats a.wrapBoundary
        (a.wrapBoundary + a.nbytes * a.beats) rem (beatAddr a n) resp (ws ++ rest) st =
      (.done (if (serve t.write (beatOps lanes sp a n ws) st).1 then resp else .slverr, rest),
        (serve t.write (beatOps lanes sp a n ws) st).2) := by
  intro rem
  induction rem with
  | zero =>
    intro n resp ws rest st hn hl _ _
    have : ws = [] := List.length_eq_zero_iff.1 hl
    subst this
    simp [slaveWriteBeats, beatOps, serve]
  | succ rem ih =>
    intro n resp ws rest st hn hl hd hlast
    cases ws with
    | nil => simp at hl
    | cons w ws =>
      have hw := hd w (by simp)
      have h0 := hlast 0 w (by simp)
      simp only [List.cons_append, slaveWriteBeats, toBytes_little lanes w.data hw]
      have hidx : a.beats - (rem + 1) = n := by omega
      have hcond : w.last = decide (a.beats - (rem + 1) = a.beats - 1) := by
        rw [h0, decide_eq_decide]; omega
      have hp := performOps_attempt t (writeOps lanes (beatWord lanes a n) (digitsLE lanes w.data)
        (if sp then w.strb else 2 ^ lanes - 1)) st
      have hbw : beatAddr a n / lanes * lanes = beatWord lanes a n := rfl
      rw [hbw]
      simp only [beatOps, serve]
      rcases hr : performOps t (writeOps lanes (beatWord lanes a n) (digitsLE lanes w.data)
        (if sp then w.strb else 2 ^ lanes - 1)) st with ⟨r, st'⟩
      rw [hr] at hp
      simp only at hp
      rw [← hp.1]
      have ihh := ih (n + 1)
      have hstep := beatAddr_step a n (by omega)
      cases r with
      | ok u =>
        have h1 : (attempt t.write (writeOps lanes (beatWord lanes a n) (digitsLE lanes w.data)
          (if sp then w.strb else 2 ^ lanes - 1)) st).1 = true := hp.2.2 rfl
        simp only [h1, hcond, ne_eq, not_true, if_false, hstep]
        rw [ihh resp ws rest st' (by omega) (by simpa using hl) (by intro w hw; exact hd w (by simp [hw])) (by
          intro i w hi
          rw [hlast (i + 1) w (by simpa using hi), decide_eq_decide]; omega)]
        simp
      | error e =>
        have h1 : (attempt t.write (writeOps lanes (beatWord lanes a n) (digitsLE lanes w.data)
          (if sp then w.strb else 2 ^ lanes - 1)) st).1 = false := by
          cases hb : (attempt t.write (writeOps lanes (beatWord lanes a n) (digitsLE lanes w.data)
            (if sp then w.strb else 2 ^ lanes - 1)) st).1 with
          | false => rfl
          | true => have := hp.2.1 hb; simp at this
        simp only [h1, hcond, ne_eq, not_true, if_false, hstep]
        rw [ihh .slverr ws rest st' (by omega) (by simpa using hl) (by intro w hw; exact hd w (by simp [hw])) (by
          intro i w hi
          rw [hlast (i + 1) w (by simpa using hi), decide_eq_decide]; omega)]
        simp

/-- The 4 KiB check of the slaves. -/
theorem check4k (a : ABeat) (h : Within4K a) :
    0x1000 - (a.aligned &&& 0xfff) ≥ a.nbytes * a.beats := by
  have hand : a.aligned &&& 0xfff = a.aligned % 4096 := Nat.and_two_pow_sub_one_eq_mod a.aligned 12
  rw [hand]
  unfold Within4K at h
  have h1 := Nat.div_add_mod a.aligned 4096
  have h2 := Nat.div_add_mod (a.aligned + a.beats * a.nbytes - 1) 4096
  have h3 := Nat.mod_lt (a.aligned + a.beats * a.nbytes - 1) (show 4096 > 0 by omega)
  have h4 := Nat.mul_pos (show 0 < a.beats from Nat.succ_pos _) a.nbytes_pos
  rw [Nat.mul_comm a.nbytes]
  omega

theorem check4k_conv (a : ABeat) (h : 0x1000 - (a.aligned &&& 0xfff) ≥ a.nbytes * a.beats) : Within4K a := by
  have hand : a.aligned &&& 0xfff = a.aligned % 4096 := Nat.and_two_pow_sub_one_eq_mod a.aligned 12
  rw [hand, Nat.mul_comm a.nbytes] at h
  unfold Within4K
  have h1 := Nat.div_add_mod a.aligned 4096
  have h3 := Nat.mod_lt a.aligned (show 4096 > 0 by omega)
  have h4 := Nat.mul_pos (show 0 < a.beats from Nat.succ_pos _) a.nbytes_pos
  omega

theorem lastFlags_getElem (n i : Nat) (h : i < (lastFlags n).length) : (lastFlags n)[i] = decide (i + 1 = n ∨ n = 0) := by
  simp only [lastFlags, List.length_append, List.length_replicate, List.length_singleton] at h
  simp only [lastFlags]
  by_cases hi : i < n - 1
  · rw [List.getElem_append_left (by simpa using hi)]
    simp; omega
  · rw [List.getElem_append_right (by simp; omega)]
    simp; omega

theorem lastFlags_length (n : Nat) (h : 0 < n) : (lastFlags n).length = n := by simp [lastFlags]; omega

/-- Serving one burst of W beats. -/
theorem slaveWrite_spec {σ : Type} (t : Target σ) (lanes : Nat) (sp : Bool) (a : ABeat) (ws rest : List WBeat)
    (st : σ) (hnb : a.nbytes ≤ lanes) (h4 : a.burst = .incr → Within4K a)
    (hl : ws.map (·.last) = lastFlags a.beats) (hd : ∀ w ∈ ws, w.data < 256 ^ lanes) :
    slaveWrite t lanes sp a (ws ++ rest) st =
      (.done ({ id := a.id
                resp := if (serve t.write (beatOps lanes sp a 0 ws) st).1 then .okay else .slverr }, rest),
        (serve t.write (beatOps lanes sp a 0 ws) st).2) := by
  have hlen : ws.length = a.beats := by
    have := congrArg List.length hl
    rwa [List.length_map, lastFlags_length a.beats (Nat.succ_pos _)] at this
  unfold slaveWrite
  simp only
  rw [if_neg (show ¬ ¬ 2 ^ a.size ≤ lanes from fun h => h hnb)]
  rw [if_neg (by
    rintro ⟨h1, h2⟩
    apply h2
    exact check4k a (h4 h1))]
  have key := slaveWriteBeats_spec t lanes sp a a.beats 0 .okay ws rest st (by omega) hlen hd (by
    intro i w hi
    obtain ⟨hi', hw⟩ := List.getElem?_eq_some_iff.1 hi
    have : (ws.map (·.last))[i]'(by simpa using hi') = w.last := by simp [hw]
    rw [← this]
    simp only [hl]
    rw [lastFlags_getElem, decide_eq_decide]
    have : 0 < a.beats := Nat.succ_pos _
    omega)
  rw [beatAddr_zero] at key
  show (match slaveWriteBeats t lanes sp a.burst a.nbytes a.beats a.wrapBoundary
    (a.wrapBoundary + a.nbytes * a.beats) a.beats a.aligned .okay (ws ++ rest) st with
    | (.done (resp, ws), st) => (Served.done (({ id := a.id, resp := resp } : BBeat), ws), st)
    | (.starved, st) => (.starved, st)
    | (.failed e, st) => (.failed e, st)) = _
  rw [key]

theorem slaveWriteBeats_bad {σ : Type} (t : Target σ) (lanes : Nat) (sp : Bool) (a : ABeat) (w : WBeat)
    (rest : List WBeat) :
    ∀ (rem n : Nat) (resp : Resp) (ws : List WBeat) (st : σ), n + rem = a.beats → ws.length < rem →
      (∀ x ∈ ws ++ [w], x.data < 256 ^ lanes) → (∀ x ∈ ws, x.last = false) →
      w.last ≠ decide (ws.length + 1 = rem) →
      slaveWriteBeats t lanes sp a.burst a.nbytes a.beats a.wrapBoundary
        (a.wrapBoundary + a.nbytes * a.beats) rem (beatAddr a n) resp (ws ++ w :: rest) st =
      (.failed .assertionError, (serve t.write (beatOps lanes sp a n (ws ++ [w])) st).2) := by
  intro rem
  induction rem with
  | zero => intro n resp ws st _ h; omega
  | succ rem ih =>
    intro n resp ws st hn hl hd hlast hbad
    have hbw : beatAddr a n / lanes * lanes = beatWord lanes a n := rfl
    cases ws with
    | nil =>
      have hw := hd w (by simp)
      simp only [List.nil_append, slaveWriteBeats, toBytes_little lanes w.data hw, beatOps, serve]
      have hp := performOps_attempt t (writeOps lanes (beatWord lanes a n) (digitsLE lanes w.data)
        (if sp then w.strb else 2 ^ lanes - 1)) st
      have hcond : w.last ≠ decide (a.beats - (rem + 1) = a.beats - 1) := by
        intro hh
        apply hbad
        rw [hh, decide_eq_decide]
        simp only [List.length_nil]
        omega
      rw [hbw, if_pos hcond, ← hp.1]
      rcases performOps t (writeOps lanes (beatWord lanes a n) (digitsLE lanes w.data)
        (if sp then w.strb else 2 ^ lanes - 1)) st with ⟨_ | _, _⟩ <;> rfl
    | cons x ws =>
      have hw := hd x (by simp)
      have h0 := hlast x (by simp)
      simp only [List.length_cons] at hl hbad
      have hp := performOps_attempt t (writeOps lanes (beatWord lanes a n) (digitsLE lanes x.data)
        (if sp then x.strb else 2 ^ lanes - 1)) st
      have hcond : x.last = decide (a.beats - (rem + 1) = a.beats - 1) := by
        rw [h0]; symm; rw [decide_eq_false_iff_not]; omega
      simp only [List.cons_append, slaveWriteBeats, toBytes_little lanes x.data hw, beatOps, serve]
      rw [hbw, beatAddr_step a n (by omega), ← hp.1]
      rcases hr : performOps t (writeOps lanes (beatWord lanes a n) (digitsLE lanes x.data)
        (if sp then x.strb else 2 ^ lanes - 1)) st with ⟨_ | _, st'⟩ <;>
      · simp only [hcond, ne_eq, not_true, if_false]
        rw [ih (n + 1) _ ws st' (by omega) (by omega) (by intro y hy; exact hd y (by simp at hy ⊢; grind))
          (by intro y hy; exact hlast y (by simp [hy])) (by
            intro hh
            apply hbad
            rw [hh, decide_eq_decide]; omega)]

theorem slaveWrite_bad {σ : Type} (t : Target σ) (lanes : Nat) (sp : Bool) (a : ABeat) (ws rest : List WBeat)
    (w : WBeat) (st : σ) (hnb : a.nbytes ≤ lanes) (h4 : a.burst = .incr → Within4K a) (hn : ws.length < a.beats)
    (hl : ∀ x ∈ ws, x.last = false) (hd : ∀ x ∈ ws ++ [w], x.data < 256 ^ lanes)
    (hbad : w.last ≠ decide (ws.length + 1 = a.beats)) :
    slaveWrite t lanes sp a (ws ++ w :: rest) st =
      (.failed .assertionError, (serve t.write (beatOps lanes sp a 0 (ws ++ [w])) st).2) := by
  unfold slaveWrite
  simp only
  rw [if_neg (show ¬ ¬ 2 ^ a.size ≤ lanes from fun h => h hnb)]
  rw [if_neg (by
    rintro ⟨h1, h2⟩
    apply h2
    exact check4k a (h4 h1))]
  have key := slaveWriteBeats_bad t lanes sp a w rest a.beats 0 .okay ws st (by omega) hn hd hl hbad
  rw [beatAddr_zero] at key
  show (match slaveWriteBeats t lanes sp a.burst a.nbytes a.beats a.wrapBoundary
    (a.wrapBoundary + a.nbytes * a.beats) a.beats a.aligned .okay (ws ++ w :: rest) st with
    | (.done (resp, ws), st) => (Served.done (({ id := a.id, resp := resp } : BBeat), ws), st)
    | (.starved, st) => (.starved, st)
    | (.failed e, st) => (.failed e, st)) = _
  rw [key]

/-! ## Reads -/

/-- The R beats of a burst, by the address rules. -/
def readBeats {σ : Type} (t : Target σ) (lanes : Nat) (a : ABeat) : (rem n : Nat) → σ → List RBeat × σ
  | 0, _, st => ([], st)
  | rem + 1, n, st =>
    let r : Resp × Bytes × σ := match t.read (beatWord lanes a n) lanes st with
      | (.ok d, st) => (.okay, d, st)
      | (.error _, st) => (.slverr, List.replicate lanes 0, st)
    let rest := readBeats t lanes a rem (n + 1) r.2.2
    ({ id := a.id, data := fromBytesLE r.2.1, resp := r.1, last := decide (rem = 0) } :: rest.1, rest.2)

theorem slaveReadBeats_spec {σ : Type} (t : Target σ) (lanes : Nat) (a : ABeat) :
    ∀ (rem n : Nat) (st : σ), n + rem = a.beats →
      slaveReadBeats t lanes a.burst a.id a.nbytes a.beats a.wrapBoundary
        (a.wrapBoundary + a.nbytes * a.beats) rem (beatAddr a n) st = readBeats t lanes a rem n st := by
  intro rem
  induction rem with
  | zero => intro n st _; rfl
  | succ rem ih =>
    intro n st hn
    have hl : decide (a.beats - (rem + 1) = a.beats - 1) = decide (rem = 0) := by
      rw [decide_eq_decide]; omega
    have hstep := beatAddr_step a n (by omega)
    simp only [slaveReadBeats, readBeats, hl, hstep]
    have hbw : beatAddr a n / lanes * lanes = beatWord lanes a n := rfl
    rw [hbw, ih (n + 1) _ (by omega)]
    rfl

theorem slaveRead_spec {σ : Type} (t : Target σ) (lanes : Nat) (a : ABeat) (st : σ) (hnb : a.nbytes ≤ lanes)
    (h4 : a.burst = .incr → Within4K a) :
    slaveRead t lanes a st = (.done (readBeats t lanes a a.beats 0 st).1, (readBeats t lanes a a.beats 0 st).2) := by
  unfold slaveRead
  simp only
  rw [if_neg (show ¬ ¬ 2 ^ a.size ≤ lanes from fun h => h hnb)]
  rw [if_neg (by
    rintro ⟨h1, h2⟩
    apply h2
    exact check4k a (h4 h1))]
  have key := slaveReadBeats_spec t lanes a a.beats 0 st (by omega)
  rw [beatAddr_zero] at key
  rw [← key]
  rfl

end Verif.Axi
