import Verif.GSCMod
/-! # Consequences for the three families -/

set_option linter.unusedSectionVars false

namespace GS
open Spec Relation
variable {α : Type _} [DecidableEq α]

theorem edge_base {s : HG α} (hs : s.Ok) (x r : α) : x ∈ Dict.getD s.value r ↔ Edge s.value x r := by
  rw [mem_getD_edge (HG.wf_value hs)]

namespace OpCond
variable {cyc : Graph α → List (List α)} {c : OpCond α} {owner : α} {s t : HG α}

theorem valid_clone (hs : s.Ok) (n : α) : c.valid owner s.clone n = c.valid owner s n := by
  have hc := HG.clone_spec hs
  unfold valid; simp only [hc.same]

/-! ## Before -/

theorem before_edge (hs : s.Ok) (hf : c.Fits owner s) (hk : c.kind = .before)
    (ha : ¬ c.Aliased ∨ (c.removeSelf = false ∧ c.prune = false))
    (h : c.modify cyc owner s = .ok t) : ∀ n ∈ c.nodes, owner ∈ t.senders n := by
  intro n hn
  rcases modify_cases cyc c owner hs hf with ⟨hv, e⟩ | ⟨_, _, _, e⟩ | ⟨_, _, u, _, _, _, e, E⟩
  · rw [h] at e; cases e
    have := hv n hn
    unfold valid at this; rw [hk] at this; simpa using this
  · rw [h] at e; cases e
  · rw [h] at e; cases e
    have P := placed_spec c owner hs hf
    refine E.mem_keep P.frame.ok owner n (fun u r _ q hsh => ?_) ?_
    · have hown : ¬ c.Aliased → (c.placed owner s).Shares owner n → False := fun ha hsh =>
        hf.apart (P.ownerShares (fun h => ha h.2) n hsh (by rw [hk]; decide) ▸ hn)
      have hr : (c.removeSelf = true ∧ r = owner) ∨ (c.prune = true ∧ r ∉ c.nodes) := by
        rcases q with ⟨q1, _, q2, _⟩ | ⟨q1, _, q2, _⟩ | ⟨q, _⟩
        · exact .inl ⟨q1, q2.symm⟩
        · refine .inr ⟨q1, fun hr => ?_⟩
          unfold required at q2; rw [hk] at q2; simp [hr] at q2
        · cases q
      have hro : r = owner ∨ r = n := by
        rcases P.shares r n hsh with e | ⟨hr', _⟩
        · exact .inr e
        · rcases hr with ⟨_, e⟩ | ⟨_, hr⟩
          · exact .inl e
          · exact .inl (hr'.resolve_right hr)
      rcases ha with ha | ⟨ha1, ha2⟩
      · rcases hro with e | e
        · subst e; exact hown ha hsh
        · subst e
          rcases hr with ⟨_, e⟩ | ⟨_, hr⟩
          · exact hf.apart (e ▸ hn)
          · exact hr hn
      · rcases hr with ⟨h1, _⟩ | ⟨h1, _⟩
        · rw [ha1] at h1; cases h1
        · rw [ha2] at h1; cases h1
    · have P1 := pre_spec c owner hs hf
      have hS := start_spec c owner P1.frame.ok P1.fits P1.noShare
      have hF := frame_loopEnd c owner hS P1.frame
      exact place_before_mem c owner hk hF.ok (fun m hm => by rw [hF.keys]; exact hf.nodesIn m hm) n hn

/-! ## After -/

theorem after_edge (hs : s.Ok) (hf : c.Fits owner s) (hk : c.kind = .after)
    (h : c.modify cyc owner s = .ok t) : ∀ n ∈ c.nodes, n ∈ t.senders owner := by
  intro n hn
  rcases modify_cases cyc c owner hs hf with ⟨hv, e⟩ | ⟨_, _, _, e⟩ | ⟨_, _, u, _, _, _, e, E⟩
  · rw [h] at e; cases e
    have := hv n hn
    unfold valid at this; rw [hk] at this; simpa using this
  · rw [h] at e; cases e
  · rw [h] at e; cases e
    have P := placed_spec c owner hs hf
    refine E.mem_keep P.frame.ok n owner (fun u r _ q hsh => ?_) ?_
    · have hr := P.ownerShares (fun h => by rw [hk] at h; cases h.1) r hsh.symm (by rw [hk]; decide)
      subst hr
      rcases q with ⟨_, _, q2, _⟩ | ⟨_, _, q2, _⟩ | ⟨q, _⟩
      · exact hf.apart (q2 ▸ hn)
      · unfold required at q2; rw [hk] at q2; simp [hn] at q2
      · cases q
    · have P1 := pre_spec c owner hs hf
      have hS := start_spec c owner P1.frame.ok P1.fits P1.noShare
      have hF := frame_loopEnd c owner hS P1.frame
      unfold placed place; rw [hk]; simp only
      rw [HG.senders_assign hF.ok, if_pos rfl, mem_setUnion]
      exact .inr hn

/-! ## With -/

theorem with_senders {n : α} (hs : s.Ok) (hf : c.Fits owner s) (hk : c.kind = .withNode)
    (hn : c.nodes = [n]) (h1 : c.ownerSenders = .merge)
    (so : owner ∉ s.senders owner) (sn : n ∉ s.senders n)
    (h : c.modify cyc owner s = .ok t) : (∀ x, x ∈ t.senders owner ↔ x ∈ t.senders n) ∧
      owner ∉ t.senders owner ∧ n ∉ t.senders n := by
  have hnm : n ∈ c.nodes := by rw [hn]; exact List.mem_singleton.mpr rfl
  have hno : n ≠ owner := fun e => hf.apart (e ▸ hnm)
  have htouch : ∀ r, Touched c owner r → r = owner ∨ r = n := by
    intro r hr
    rcases hr with e | e
    · exact .inl e
    · rw [hn] at e; exact .inr (List.mem_singleton.mp e)
  rcases modify_cases cyc c owner hs hf with ⟨hv, e⟩ | ⟨_, _, _, e⟩ | ⟨_, _, u, _, _, _, e, E⟩
  · rw [h] at e; cases e
    have := hv n hnm
    unfold valid at this; rw [hk] at this
    simp only [Bool.and_eq_true, List.all_eq_true, decide_eq_true_eq] at this
    refine ⟨fun x => ⟨fun hx => this.2 x hx, fun hx => this.1 x hx⟩, ?_, ?_⟩
    · rw [(HG.clone_spec hs).same]; exact so
    · rw [(HG.clone_spec hs).same]; exact sn
  · rw [h] at e; cases e
  · rw [h] at e; cases e
    have P := placed_spec c owner hs hf
    have P1 := pre_spec c owner hs hf
    have hS := start_spec c owner P1.frame.ok P1.fits P1.noShare
    have hF := frame_loopEnd c owner hS P1.frame
    have hpl : c.placed owner s = ((c.loopEnd owner (c.pre owner s)).1.assign owner
        (setUnion ((c.loopEnd owner (c.pre owner s)).1.senders owner)
          ((c.loopEnd owner (c.pre owner s)).1.senders n))).assign n
        (setUnion ((c.loopEnd owner (c.pre owner s)).1.senders owner)
          ((c.loopEnd owner (c.pre owner s)).1.senders n)) := by
      unfold placed place; rw [hk]; simp only; rw [hn]
    have f1 := hF.ok.assign owner (setUnion ((c.loopEnd owner (c.pre owner s)).1.senders owner)
          ((c.loopEnd owner (c.pre owner s)).1.senders n))
    have so' : (c.placed owner s).senders owner =
        setUnion ((c.loopEnd owner (c.pre owner s)).1.senders owner)
          ((c.loopEnd owner (c.pre owner s)).1.senders n) := by
      rw [hpl, HG.senders_assign f1, if_neg (fun e => hno e.symm), HG.senders_assign hF.ok, if_pos rfl]
    have sn' : (c.placed owner s).senders n =
        setUnion ((c.loopEnd owner (c.pre owner s)).1.senders owner)
          ((c.loopEnd owner (c.pre owner s)).1.senders n) := by
      rw [hpl, HG.senders_assign f1, if_pos rfl]
    -- both sets are private
    have priv : ∀ r m, (m = owner ∨ m = n) → (c.placed owner s).Shares r m → r = m := by
      intro r m hm hsh
      rw [hpl] at hsh
      rcases HG.shares_assign f1 _ _ r m hsh with e | ⟨_, hmn, hsh⟩
      · exact e
      · rcases HG.shares_assign hF.ok _ _ r m hsh with e | ⟨_, hmo, _⟩
        · exact e
        · rcases hm with e | e
          · exact absurd e hmo
          · exact absurd e hmn
    -- no touched node is a sender of a touched node
    have priv0 : ∀ m r, (r = owner ∨ r = n) → (c.start owner (c.pre owner s)).Shares m r → m = r := by
      have key : ∀ m, (c.start owner (c.pre owner s)).Shares owner m → m = owner := by
        intro m hsh
        rcases hS.ownerShares m hsh with e | ⟨e, _⟩
        · exact e
        · rw [h1] at e; cases e
      intro m r hr hsh
      rcases hS.shares m r hsh with e | ⟨hm, hr'⟩
      · exact e
      · rcases htouch m hm with e | e <;> rcases hr with e' | e'
        · rw [e, e']
        · rw [e] at hsh; rw [e]; exact (key r hsh).symm
        · rw [e'] at hsh; rw [e']; exact key m hsh.symm
        · rw [e, e']
    have nosend : ∀ y r, (y = owner ∨ y = n) → (r = owner ∨ r = n) →
        y ∉ (c.loopEnd owner (c.pre owner s)).1.senders r := by
      intro y r hy hr hmem
      have hrk : r ∈ Dict.keys (c.pre owner s).graph := by
        rcases hr with e | e
        · rw [e]; exact P1.fits.ownerIn
        · rw [e]; exact P1.fits.nodesIn n hnm
      have hyt : Touched c owner y := hy.imp id (fun (e : y = n) => e ▸ hnm)
      rw [loopEnd_private c owner P1.frame.ok P1.fits P1.noShare y r hyt hrk
        (fun m => priv0 m r hr)] at hmem
      have nr : ∀ z, (z = owner ∨ z = n) → r ∉ Dict.getD (getReceivers (c.pre owner s).value) z := by
        intro z hz hc
        rw [mem_getReceivers, HG.edge_value P1.frame.ok, P1.mem] at hc
        obtain ⟨c1, c2, c3⟩ := hc
        rcases hz with rfl | rfl <;> rcases hr with rfl | rfl
        · exact so c1
        · exact c2 ⟨rfl, hnm⟩
        · exact c3 ⟨hnm, rfl⟩
        · exact sn c1
      have none_of : ∀ (op : Oper) (a b : List α), r ∉ a → r ∉ b → r ∉ op.val a b := by
        intro op a b h1 h2 h3
        rw [mem_val] at h3
        cases op <;> simp [OperHolds, h1, h2] at h3
      unfold receiversVal at hmem
      by_cases hyo : y = owner
      · rw [if_pos hyo] at hmem
        refine none_of _ _ _ (nr owner (.inl rfl)) ?_ hmem
        rw [hn, mem_unionAll]
        rintro ⟨l, hl, hr'⟩
        simp at hl; subst hl
        exact nr n (.inr rfl) hr'
      · rw [if_neg hyo] at hmem
        exact none_of _ _ _ (nr y hy) (nr owner (.inl rfl)) hmem
    have notin : ∀ y, (y = owner ∨ y = n) → y ∉ setUnion ((c.loopEnd owner (c.pre owner s)).1.senders owner)
          ((c.loopEnd owner (c.pre owner s)).1.senders n) := by
      intro y hy hm
      rw [mem_setUnion] at hm
      exact hm.elim (nosend y owner hy (.inl rfl)) (nosend y n hy (.inr rfl))
    -- post-processing does not change them
    have stay : ∀ x m, (m = owner ∨ m = n) →
        (x ∈ (c.reconnectAll owner s.value u).senders m ↔
          x ∈ setUnion ((c.loopEnd owner (c.pre owner s)).1.senders owner)
            ((c.loopEnd owner (c.pre owner s)).1.senders n)) := by
      intro x m hm
      have hsm : (c.placed owner s).senders m = setUnion ((c.loopEnd owner (c.pre owner s)).1.senders owner)
          ((c.loopEnd owner (c.pre owner s)).1.senders n) := by
        rcases hm with e | e
        · rw [e]; exact so'
        · rw [e]; exact sn'
      constructor
      · intro hx
        rw [← hsm]
        refine E.mem_old P.frame.ok x m (fun u r _ q hsh => ?_) hx
        have hr := priv r m hm hsh
        subst hr
        rcases q with ⟨_, q, _⟩ | ⟨_, q, _⟩ | ⟨_, _, q1, q2, _⟩
        · cases q
        · cases q
        · rcases hm with e | e
          · rw [e, HG.getD_value] at q2; exact so q2
          · exact q1 (e ▸ hnm)
      · intro hx
        have hxo : ¬ (x = owner ∨ x = n) := fun e => notin x e hx
        rw [← hsm] at hx
        refine E.mem_keep P.frame.ok x m (fun u r _ q hsh => ?_) hx
        have hr := priv r m hm hsh
        subst hr
        rcases q with ⟨_, _, q, _⟩ | ⟨_, _, q, _⟩ | ⟨q, _⟩
        · exact hxo (q ▸ hm)
        · unfold required at q; rw [hk] at q
          rcases hm with e | e
          · simp [e] at q
          · rw [e] at q; simp [hnm] at q
        · cases q
    refine ⟨fun x => by rw [stay x owner (.inl rfl), stay x n (.inr rfl)], ?_, ?_⟩
    · rw [stay owner owner (.inl rfl)]; exact notin owner (.inl rfl)
    · rw [stay n n (.inr rfl)]; exact notin n (.inr rfl)

/-! ## Locality -/

theorem untouched_edges (hs : s.Ok) (hf : c.Fits owner s) (h : c.modify cyc owner s = .ok t) (x r : α)
    (hx : ¬ Touched c owner x) (hr : ¬ Touched c owner r) :
    (x ∈ t.senders r → x ∈ s.senders r ∨ (c.reconnect = true ∧ x ∈ s.senders owner ∧ owner ∈ s.senders r)) ∧
    (x ∈ s.senders r → x ∈ t.senders r ∨ (c.prune = true ∧ r ∈ s.senders x)) := by
  rcases modify_cases cyc c owner hs hf with ⟨hv, e⟩ | ⟨_, _, _, e⟩ | ⟨_, _, u, _, _, _, e, E⟩
  · rw [h] at e; cases e
    rw [(HG.clone_spec hs).same]
    exact ⟨.inl, .inl⟩
  · rw [h] at e; cases e
  · rw [h] at e; cases e
    have P := placed_spec c owner hs hf
    have priv : ∀ r', (c.placed owner s).Shares r' r → r' = r := fun r' hsh =>
      (P.shares r' r hsh).resolve_right fun h => hr h.2
    constructor
    · intro hm
      apply Classical.byContradiction
      intro hn
      refine hn (.inl ((P.others x r hx hr).mp (E.mem_old P.frame.ok x r (fun u r' _ q hsh => ?_) hm)))
      have e := priv r' hsh
      subst e
      rcases q with ⟨_, q, _⟩ | ⟨_, q, _⟩ | ⟨_, q0, q1, q2, q3, _⟩
      · cases q
      · cases q
      · rw [HG.getD_value] at q2 q3
        exact hn (.inr ⟨q0, q3, q2⟩)
    · intro hm
      apply Classical.byContradiction
      intro hn
      refine hn (.inl (E.mem_keep P.frame.ok x r (fun u r' _ q hsh => ?_) ((P.others x r hx hr).mpr hm)))
      have e := priv r' hsh
      subst e
      rcases q with ⟨_, _, q1, q2⟩ | ⟨q0, _, _, _, q⟩ | ⟨q, _⟩
      · subst q1; rw [HG.getD_value] at q2; exact q2 hm
      · rcases q with q | q | q
        · exact hx (.inl q)
        · exact hr (.inl q)
        · rw [HG.getD_value] at q; exact hn (.inr ⟨q0, q⟩)
      · cases q

/-! ## Reconnection -/

theorem TransGen.mono' {R S : α → α → Prop} (h : ∀ a b, R a b → S a b) {a b : α} (t : TransGen R a b) :
    TransGen S a b := by
  induction t with
  | single e => exact .single (h _ _ e)
  | tail _ e ih => exact ih.tail (h _ _ e)

theorem reconnectStep_path (base : Graph α) {u : HG α} (hu : u.Ok) (x r : α) (hr : r ∉ c.nodes)
    (h1 : owner ∈ Dict.getD base r) (h2 : x ∈ Dict.getD base owner) (hrk : r ∈ Dict.keys u.graph) :
    TransGen (Edge (c.reconnectStep owner base x u r).value) x r ∨
    TransGen (Edge (c.reconnectStep owner base x u r).value) r x := by
  unfold reconnectStep
  by_cases hc : (owner ∉ u.senders r ∨ x ∉ u.senders owner) ∧ x ∉ Dict.getD (getDescendants u.value) r
  · rw [if_pos ⟨hr, h1, h2, hc⟩]
    left
    refine .single ((HG.edge_value (hu.upd _ _) x r).mpr ?_)
    rw [HG.senders_upd_self hu hrk]; simp
  · rw [if_neg (fun h => hc h.2.2.2)]
    by_cases hd : x ∈ Dict.getD (getDescendants u.value) r
    · right
      exact ((mem_descendants (HG.wf_value hu) (by rw [HG.keys_value]; exact hrk) x).mp hd).2
    · left
      have h3 : owner ∈ u.senders r := Classical.byContradiction fun e => hc ⟨.inl e, hd⟩
      have h4 : x ∈ u.senders owner := Classical.byContradiction fun e => hc ⟨.inr e, hd⟩
      exact (TransGen.single ((HG.edge_value hu _ _).mpr h4)).tail ((HG.edge_value hu _ _).mpr h3)

theorem adds_mono {Q : HG α → Bool → α → α → Prop} (hq : ∀ u b x r, Q u b x r → b = true)
    {u v : HG α} (hu : u.Ok) (E : Edits Q u v) : ∀ a b, Edge u.value a b → Edge v.value a b := by
  intro a b h
  rw [HG.edge_value (E.ok hu)]
  rw [HG.edge_value hu] at h
  exact E.mem_keep hu a b (fun _ _ _ q => by have := hq _ _ _ _ q; cases this) h

theorem mayAdd_true {c : OpCond α} {owner : α} {base : Graph α} :
    ∀ u b x r, c.MayAdd owner base u b x r → b = true := fun _ _ _ _ h => h.1

theorem reconnectAll_path (base : Graph α) (hrec : c.reconnect = true) {u : HG α} (hu : u.Ok)
    (hb : ∀ r, owner ∈ Dict.getD base r → r ∈ Dict.keys u.graph) (hwf : Dict.WF base) (x r : α)
    (hr : r ∉ c.nodes) (h1 : owner ∈ Dict.getD base r) (h2 : x ∈ Dict.getD base owner) :
    TransGen (Edge (c.reconnectAll owner base u).value) x r ∨
    TransGen (Edge (c.reconnectAll owner base u).value) r x := by
  unfold reconnectAll
  rw [if_pos hrec]
  have hrr : r ∈ Dict.getD (getReceivers base) owner := by
    rw [mem_getReceivers, ← mem_getD_edge hwf]; exact h1
  -- the inner loop
  have inner : ∀ (l : List α) (v : HG α), v.Ok → v.graph = u.graph → r ∈ l →
      TransGen (Edge (l.foldl (c.reconnectStep owner base x) v).value) x r ∨
      TransGen (Edge (l.foldl (c.reconnectStep owner base x) v).value) r x := by
    intro l
    induction l with
    | nil => intro v _ _ h; cases h
    | cons m l ih =>
      intro v hv hg hm
      rw [List.foldl_cons]
      have E := reconnectStep_edits c owner base hrec x v m
      by_cases hml : r ∈ l
      · exact ih _ (E.ok hv) (by rw [E.graph, hg]) hml
      · have e : r = m := (List.mem_cons.mp hm).resolve_right hml
        subst e
        have E2 := reconnectInner_edits c owner base hrec x l (c.reconnectStep owner base x v r)
        have hmono := adds_mono mayAdd_true (E.ok hv) E2
        rcases reconnectStep_path (c := c) base hv x r hr h1 h2 (by rw [hg]; exact hb r h1) with h | h
        · exact .inl (TransGen.mono' hmono h)
        · exact .inr (TransGen.mono' hmono h)
  have outer : ∀ (l : List α) (v : HG α), v.Ok → v.graph = u.graph → x ∈ l →
      TransGen (Edge (l.foldl (fun s sender => (Dict.getD (getReceivers base) owner).foldl
        (c.reconnectStep owner base sender) s) v).value) x r ∨
      TransGen (Edge (l.foldl (fun s sender => (Dict.getD (getReceivers base) owner).foldl
        (c.reconnectStep owner base sender) s) v).value) r x := by
    intro l
    induction l with
    | nil => intro v _ _ h; cases h
    | cons y l ih =>
      intro v hv hg hm
      rw [List.foldl_cons]
      have E := reconnectInner_edits c owner base hrec y (Dict.getD (getReceivers base) owner) v
      by_cases hml : x ∈ l
      · exact ih _ (E.ok hv) (by rw [E.graph, hg]) hml
      · have e : x = y := (List.mem_cons.mp hm).resolve_right hml
        subst e
        have E2 : Edits (c.MayAdd owner base) ((Dict.getD (getReceivers base) owner).foldl
            (c.reconnectStep owner base x) v) (l.foldl (fun s sender =>
              (Dict.getD (getReceivers base) owner).foldl (c.reconnectStep owner base sender) s)
              ((Dict.getD (getReceivers base) owner).foldl (c.reconnectStep owner base x) v)) := by
          generalize (Dict.getD (getReceivers base) owner).foldl (c.reconnectStep owner base x) v = w
          clear ih hml hm
          induction l generalizing w with
          | nil => exact .refl
          | cons z l ih2 =>
            rw [List.foldl_cons]
            exact (reconnectInner_edits c owner base hrec z _ w).trans (ih2 _)
        have hmono := adds_mono mayAdd_true (E.ok hv) E2
        rcases inner _ v hv hg hrr with h | h
        · exact .inl (TransGen.mono' hmono h)
        · exact .inr (TransGen.mono' hmono h)
  exact outer _ u hu rfl h2

/-- One more edge. -/
theorem transGen_add {R S : α → α → Prop} {x r : α} (h : ∀ a b, S a b → R a b ∨ (a = x ∧ b = r))
    {a b : α} (t : TransGen S a b) :
    TransGen R a b ∨ ((a = x ∨ TransGen R a x) ∧ (r = b ∨ TransGen R r b)) := by
  induction t with
  | single e =>
    rcases h _ _ e with h | ⟨h1, h2⟩
    · exact .inl (.single h)
    · exact .inr ⟨.inl h1, .inl h2.symm⟩
  | tail _ e ih =>
    rcases h _ _ e with h | ⟨h1, h2⟩
    · rcases ih with ih | ⟨i1, i2⟩
      · exact .inl (ih.tail h)
      · refine .inr ⟨i1, .inr ?_⟩
        rcases i2 with e | i2
        · rw [e]; exact .single h
        · exact i2.tail h
    · subst h1; subst h2
      rcases ih with ih | ⟨i1, _⟩
      · exact .inr ⟨.inr ih, .inl rfl⟩
      · exact .inr ⟨i1, .inl rfl⟩

theorem transGen_trans {R : α → α → Prop} {a b d : α} (h1 : TransGen R a b) (h2 : TransGen R b d) :
    TransGen R a d := by
  induction h2 with
  | single e => exact h1.tail e
  | tail _ e ih => exact ih.tail e

theorem reconnect_acyclic {base : Graph α} (hwf : Dict.WF base) (hb : ¬ Cyclic base) {u v : HG α}
    (hu : u.Ok) (hsh : ∀ n m, u.Shares n m → n = m ∨ (Touched c owner n ∧ Touched c owner m))
    (E : Edits (c.MayAdd owner base) u v) (h : ¬ Cyclic u.value) : ¬ Cyclic v.value := by
  induction E with
  | refl => exact h
  | @step w add x r E q ih =>
    obtain ⟨q0, _, q1, q2, q3, _, q4⟩ := q
    subst q0
    have hw := E.ok hu
    have e1 : Edge base x owner := (mem_getD_edge hwf _ _).mp q3
    have e2 : Edge base owner r := (mem_getD_edge hwf _ _).mp q2
    have hxr : x ≠ r := fun e => hb ⟨x, by
      have : TransGen (Edge base) x r := (TransGen.single e1).tail e2
      rw [← e] at this; exact this⟩
    have hro : r ≠ owner := fun e => hb ⟨owner, .single (e ▸ e2)⟩
    have hrt : ¬ Touched c owner r := fun h => h.elim hro q1
    rintro ⟨n, hn⟩
    have hadd : ∀ a b, Edge (w.upd r (edit true x)).value a b → Edge w.value a b ∨ (a = x ∧ b = r) := by
      intro a b hab
      rw [HG.edge_value (hw.upd _ _)] at hab
      rw [HG.edge_value hw]
      by_cases hs : w.Shares r b
      · have : r = b := ((hsh r b ((E.shares r b).mp hs)).resolve_right fun h => hrt h.1)
        subst this
        rw [HG.senders_upd_shared hw _ hs] at hab
        simp [edit] at hab
        rcases hab with e | e
        · exact .inr ⟨e, rfl⟩
        · exact .inl e
      · rw [HG.senders_upd_other hw _ hs] at hab; exact .inl hab
    rcases transGen_add hadd hn with h | ⟨h1, h2⟩
    · exact ih ⟨n, h⟩
    · -- a path from r to x
      by_cases hrk : r ∈ Dict.keys w.graph
      · apply q4
        rw [mem_descendants (HG.wf_value hw) (by rw [HG.keys_value]; exact hrk)]
        refine ⟨hxr, ?_⟩
        rcases h1 with h1 | h1 <;> rcases h2 with h2 | h2
        · exact absurd (h1.symm.trans h2.symm) hxr
        · rw [← h1]; exact h2
        · rw [h2]; exact h1
        · exact transGen_trans h2 h1
      · have e : w.upd r (edit true x) = w := by
          unfold HG.upd; rw [Dict.get?_eq_none.mpr hrk]
        rw [e] at hn
        exact ih ⟨n, hn⟩

/-! ## Switching post-processing off -/

theorem pruneRound_reconnect (cyc : Graph α → List (List α)) (c : OpCond α) (owner : α) (b : Bool)
    (base : Graph α) (p : List (List α)) (t : HG α) :
    ({ c with reconnect := b } : OpCond α).pruneRound cyc owner base p t = c.pruneRound cyc owner base p t :=
  rfl

theorem pruneLoop_reconnect (cyc : Graph α → List (List α)) (c : OpCond α) (owner : α) (b : Bool)
    (base : Graph α) : ∀ (k : Nat) (p : List (List α)) (t : HG α),
    ({ c with reconnect := b } : OpCond α).pruneLoop cyc owner base k p t = c.pruneLoop cyc owner base k p t := by
  intro k
  induction k with
  | zero => intro p t; rfl
  | succ k ih =>
    intro p t
    unfold pruneLoop
    simp only [ih, pruneRound_reconnect]

theorem modify_reconnect_off (hs : s.Ok) (hf : c.Fits owner s) (h : c.modify cyc owner s = .ok t) :
    ∃ t0, ({ c with reconnect := false } : OpCond α).modify cyc owner s = .ok t0 ∧
      ((t = t0 ∧ ∀ n ∈ c.nodes, c.valid owner s.clone n = true) ∨ (HFrame s.heap (Dict.keys s.graph) t0 ∧
        (∀ n m, t0.Shares n m → n = m ∨ (Touched c owner n ∧ Touched c owner m)) ∧
        t = c.reconnectAll owner s.value t0)) := by
  have hf0 : ({ c with reconnect := false } : OpCond α).Fits owner s := ⟨hf.ownerIn, hf.nodesIn, hf.apart⟩
  rcases modify_cases cyc c owner hs hf with ⟨hv, e⟩ | ⟨_, _, _, e⟩ | ⟨h1, h2, u, hu, E1, _, e, E⟩
  · rw [h] at e; cases e
    rcases modify_cases cyc _ owner hs hf0 with ⟨_, e'⟩ | ⟨h', _⟩ | ⟨h', _⟩
    · exact ⟨_, e', .inl ⟨rfl, hv⟩⟩
    · exact absurd hv h'
    · exact absurd hv h'
  · rw [h] at e; cases e
  · rw [h] at e; cases e
    rcases modify_cases cyc _ owner hs hf0 with ⟨h', _⟩ | ⟨_, h3, h4, _⟩ | ⟨_, _, u', hu', _, _, e', _⟩
    · exact absurd h' h1
    · exact absurd ⟨h3, h4⟩ h2
    · have huu : u' = u := by
        have : ({ c with reconnect := false } : OpCond α).pruneCycles cyc owner s.value
            (({ c with reconnect := false } : OpCond α).selfCut s.value
              (({ c with reconnect := false } : OpCond α).placed owner s)) =
            c.pruneCycles cyc owner s.value (c.selfCut s.value (c.placed owner s)) := by
          unfold pruneCycles
          rw [pruneLoop_reconnect]
          rfl
        rw [this, hu] at hu'
        exact (Except.ok.inj hu').symm
      subst huu
      have P := placed_spec c owner hs hf
      have E0 := selfCut_edits c s.value (c.placed owner s)
      exact ⟨u', e', .inr ⟨(P.frame.edits E0).edits E1,
        fun n m h => P.shares n m ((E0.shares n m).mp ((E1.shares n m).mp h)), rfl⟩⟩

/-! ## Pruning against no pruning -/

theorem reconnectAll_off (base : Graph α) (u : HG α) :
    ({ c with reconnect := false } : OpCond α).reconnectAll owner base u = u := by
  unfold reconnectAll; simp

theorem modify_prune (hs : s.Ok) (hf : c.Fits owner s) (hp : c.prune = true) (hr : c.reconnect = false)
    (h : c.modify cyc owner s = .ok t) :
    ∃ t0, ({ c with prune := false } : OpCond α).modify cyc owner s = .ok t0 ∧
      t0.Ok ∧ Edits (c.MayCut owner s.value) t0 t ∧ (cyc t0.value = [] → t = t0) ∧
      ((t = t0 ∧ ∀ n ∈ c.nodes, c.valid owner s.clone n = true) ∨
        ((∀ n m, t0.Shares n m → n = m ∨ (Touched c owner n ∧ Touched c owner m)) ∧
        (¬ (c.kind = .before ∧ c.Aliased) → ∀ n, t0.Shares owner n → c.kind ≠ .withNode → n = owner))) := by
  have hf0 : ({ c with prune := false } : OpCond α).Fits owner s := ⟨hf.ownerIn, hf.nodesIn, hf.apart⟩
  have hoff : ∀ u : HG α, c.reconnectAll owner s.value u = u := by
    intro u; unfold reconnectAll; rw [hr]; rfl
  rcases modify_cases cyc c owner hs hf with ⟨hv, e⟩ | ⟨_, _, _, e⟩ | ⟨h1, h2, u, hu, E1, hE, e, E⟩
  · rw [h] at e; cases e
    rcases modify_cases cyc _ owner hs hf0 with ⟨_, e'⟩ | ⟨h', _⟩ | ⟨h', _⟩
    · exact ⟨_, e', (HG.clone_spec hs).ok, .refl, fun _ => rfl, .inl ⟨rfl, hv⟩⟩
    · exact absurd hv h'
    · exact absurd hv h'
  · rw [h] at e; cases e
  · rw [h, hoff] at e; cases e
    rcases modify_cases cyc _ owner hs hf0 with ⟨h', _⟩ | ⟨_, h3, h4, _⟩ | ⟨_, _, u', hu', _, _, e', _⟩
    · exact absurd h' h1
    · exact absurd ⟨h3, h4⟩ h2
    · have huu : u' = c.selfCut s.value (c.placed owner s) := by
        unfold pruneCycles at hu'
        simp only [Bool.false_eq_true, if_false] at hu'
        exact (Except.ok.inj hu').symm
      have hoff' : ({ c with prune := false } : OpCond α).reconnectAll owner s.value u' = u' := by
        unfold reconnectAll; simp only [hr, Bool.false_eq_true, if_false]
      rw [hoff', huu] at e'
      have P := placed_spec c owner hs hf
      have E0 := selfCut_edits c s.value (c.placed owner s)
      exact ⟨_, e', E0.ok P.frame.ok, E1.mono fun _ _ _ _ q => q.2, hE,
        .inr ⟨fun n m h => P.shares n m ((E0.shares n m).mp h),
          fun ha n h => P.ownerShares ha n ((E0.shares _ _).mp h)⟩⟩

/-! ## The edges before post-processing -/

/-- Nothing is done after `_process` if all three switches are off. -/
theorem modify_plain (hs : s.Ok) (hf : c.Fits owner s) (h1 : c.removeSelf = false) (h2 : c.prune = false)
    (h3 : c.reconnect = false) (hv : ¬ ∀ n ∈ c.nodes, c.valid owner s.clone n = true) :
    c.modify cyc owner s =
      if c.ignoreConflicts = false ∧ (c.loopEnd owner (c.pre owner s)).2 = true then
        .error .conditionError else .ok (c.placed owner s) := by
  have hoff : ∀ u : HG α, c.reconnectAll owner s.value u = u := by
    intro u; unfold reconnectAll; rw [h3]; rfl
  rcases modify_cases cyc c owner hs hf with ⟨hv', e⟩ | ⟨_, a, b, e⟩ | ⟨_, a, u, hu, E1, hE, e, E⟩
  · exact absurd hv' hv
  · rw [if_pos ⟨a, b⟩, e]
  · rw [if_neg a, e, hoff]
    unfold pruneCycles at hu
    rw [h2] at hu
    simp only [Bool.false_eq_true, if_false] at hu
    rw [← Except.ok.inj hu]
    unfold selfCut; rw [h1]; rfl

theorem placed_edges (hs : s.Ok) (hf : c.Fits owner s) (ha : c.kind = .before → ¬ c.Aliased)
    (hw : c.kind = .withNode → ∃ n, c.nodes = [n]) (x r : α) :
    x ∈ (c.placed owner s).senders r ↔ x ∈ (c.loopEnd owner (c.pre owner s)).1.senders r ∨
      match c.kind with
      | .before => x = owner ∧ r ∈ c.nodes
      | .after => x ∈ c.nodes ∧ r = owner
      | .withNode => Touched c owner r ∧
          ∃ r', Touched c owner r' ∧ x ∈ (c.loopEnd owner (c.pre owner s)).1.senders r' := by
  have P1 := pre_spec c owner hs hf
  have hS := start_spec c owner P1.frame.ok P1.fits P1.noShare
  have hF := frame_loopEnd c owner hS P1.frame
  have hkeys : ∀ n ∈ c.nodes, n ∈ Dict.keys (c.loopEnd owner (c.pre owner s)).1.graph := fun n hn => by
    rw [hF.keys]; exact hf.nodesIn n hn
  unfold placed
  cases hk : c.kind with
  | before =>
    simp only
    have E := place_before_edits c owner hk (c.loopEnd owner (c.pre owner s)).1
    constructor
    · intro h
      apply Classical.byContradiction
      intro hn
      refine hn (.inl (E.mem_old hF.ok x r (fun u r' _ q hsh => ?_) h))
      obtain ⟨_, q1, q2⟩ := q
      rcases hS.shares r' r ((loopEnd_shares c owner _ _ _).mp hsh) with e | ⟨_, hr⟩
      · exact hn (.inr ⟨q1, e ▸ q2⟩)
      · rcases hr with e | hr
        · subst e
          rcases hS.ownerShares r' ((loopEnd_shares c r _ _ _).mp hsh.symm) with e | ⟨a1, a2, a3⟩
          · exact hf.apart (e ▸ q2)
          · exact ha hk ⟨a1, r', a2, a3⟩
        · exact hn (.inr ⟨q1, hr⟩)
    · rintro (h | ⟨e, hr⟩)
      · exact E.mem_keep hF.ok x r (fun _ _ _ q => by cases q.1) h
      · rw [e]; exact place_before_mem c owner hk hF.ok hkeys r hr
  | after =>
    simp only
    unfold place; rw [hk]; simp only
    rw [HG.senders_assign hF.ok]
    by_cases hr : r = owner
    · rw [if_pos hr, mem_setUnion, hr]; simp
    · rw [if_neg hr]; simp [hr]
  | withNode =>
    simp only
    obtain ⟨n, hn⟩ := hw hk
    have hno : n ≠ owner := fun e => hf.apart (by rw [hn, e]; exact List.mem_singleton.mpr rfl)
    unfold place; rw [hk]; simp only; rw [hn]; simp only
    rw [HG.senders_assign (hF.ok.assign _ _), HG.senders_assign hF.ok]
    have ht : ∀ r, Touched c owner r ↔ r = owner ∨ r = n := by
      intro r; unfold Touched; rw [hn, List.mem_singleton]
    simp only [ht]
    have hex : (∃ r', (r' = owner ∨ r' = n) ∧ x ∈ (c.loopEnd owner (c.pre owner s)).1.senders r') ↔
        x ∈ setUnion ((c.loopEnd owner (c.pre owner s)).1.senders owner)
          ((c.loopEnd owner (c.pre owner s)).1.senders n) := by
      rw [mem_setUnion]
      constructor
      · rintro ⟨r', rfl | rfl, h⟩
        · exact .inl h
        · exact .inr h
      · rintro (h | h)
        · exact ⟨owner, .inl rfl, h⟩
        · exact ⟨n, .inr rfl, h⟩
    rw [hex]
    have hsub : ∀ m, (m = owner ∨ m = n) → x ∈ (c.loopEnd owner (c.pre owner s)).1.senders m →
        x ∈ setUnion ((c.loopEnd owner (c.pre owner s)).1.senders owner)
          ((c.loopEnd owner (c.pre owner s)).1.senders n) := fun m hm h => hex.mp ⟨m, hm, h⟩
    by_cases h1 : r = n
    · rw [if_pos h1]
      exact ⟨fun h => .inr ⟨.inr h1, h⟩, fun h => h.elim (hsub r (.inr h1)) (·.2)⟩
    · rw [if_neg h1]
      by_cases h2 : r = owner
      · rw [if_pos h2]
        exact ⟨fun h => .inr ⟨.inl h2, h⟩, fun h => h.elim (hsub r (.inl h2)) (·.2)⟩
      · rw [if_neg h2]; simp [h1, h2]

end OpCond
end GS
