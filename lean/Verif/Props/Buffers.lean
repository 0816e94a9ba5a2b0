import Verif.Model.Buffers
import Verif.Props.Process
/-
C122: which byte slices belong to the application once a call has returned.
-/
namespace Mls

variable {pr : Prims}

/-! ### Specification -/

/-- What an application has if the library keeps no slice of it and lets it have none: the arrays, and objects by value. The private keys of a key pair package are in
exported fields, so they are slices. `lent` are the arrays that are better left alone, `lentPairs` the key pair packages. -/
structure Spec.Own where
  arrays : List Bytes
  credentials : List Credential
  pairs : List (KeyPackage × Nat × Nat × Nat)
  packages : List KeyPackage
  welcomes : List Welcome
  groups : List GroupState
  lent : List Nat
  lentPairs : List Nat
  deriving Inhabited

/-- The byte string in an array. -/
def Spec.Own.bytes (o : Own) (a : Nat) : Bytes := o.arrays.getD a []

/-- A key pair package, with the private keys that are in its slices. -/
def Spec.Own.pair (o : Own) (p : KeyPackage × Nat × Nat × Nat) : KeyPairPackage := ⟨p.1, ⟨o.bytes p.2.1, o.bytes p.2.2.1, o.bytes p.2.2.2⟩⟩

/-- What a call returns is in new arrays. -/
def Spec.Own.returns (o : Own) (bs : List Bytes) : List Bytes × Own := (bs, { o with arrays := o.arrays ++ bs })

/-- A new welcome. There are arrays with the references, for NewMembers to return; they are lent. -/
def Spec.Own.addWelcome (o : Own) (x : Welcome) : Own :=
  { o with
    arrays := o.arrays ++ x.secrets.map EncryptedGroupSecrets.newMember
    welcomes := o.welcomes ++ [x]
    lent := o.lent ++ List.range' o.arrays.length x.secrets.length }

/-- What a use does. Lent are the identity that NewBasicCredential gets, the ID that CreateGroup gets, the private encryption and signature keys that CreateGroup and
GroupFromWelcome get, and what NewMembers returns; and the key pair package that CreateGroup gets. Nothing else. -/
def Spec.Own.step? (pr : Prims) (o : Own) : Use → Option (Res (List Bytes) × Own)
  | .make b => some (.ok [], { o with arrays := o.arrays ++ [b] })
  | .write a b => do
    let old ← o.arrays[a]?
    if old.length = b.length then some (.ok [], { o with arrays := o.arrays.set a b }) else none
  | .setPublic i p => do
    let pair ← o.pairs[i]?
    let pkg ← o.packages[p]?
    some (.ok [], { o with pairs := o.pairs.set i (pkg, pair.2) })
  | .setPrivate i init enc sig => do
    let pair ← o.pairs[i]?
    let _ ← o.arrays[init]?
    let _ ← o.arrays[enc]?
    let _ ← o.arrays[sig]?
    some (.ok [], { o with pairs := o.pairs.set i (pair.1, init, enc, sig) })
  | .takePublic i => do
    let pair ← o.pairs[i]?
    some (.ok [], { o with packages := o.packages ++ [pair.1] })
  | .newBasicCredential a => do
    let identity ← o.arrays[a]?
    some (.ok [], { o with credentials := o.credentials ++ [.basic identity], lent := o.lent ++ [a] })
  | .generateKeyPairPackage c cs r => do
    let credential ← o.credentials[c]?
    some ((Mls.generateKeyPairPackage pr cs credential r).conclude o fun kp =>
      ([], { o with arrays := o.arrays ++ [kp.priv.initKey, kp.priv.encryptionKey, kp.priv.signatureKey],
                    pairs := o.pairs ++ [(kp.pub, o.arrays.length, o.arrays.length + 1, o.arrays.length + 2)] }))
  | .unmarshalKeyPackage a => do
    let raw ← o.arrays[a]?
    some ((Mls.unmarshalKeyPackage raw).conclude o fun k => ([], { o with packages := o.packages ++ [k] }))
  | .keyPackageBytes p => do
    let k ← o.packages[p]?
    some (k.bytes.conclude o fun raw => o.returns [raw])
  | .generateRef p => do
    let k ← o.packages[p]?
    some ((k.generateRef pr).conclude o fun ref => o.returns [ref])
  | .createGroup a i rand => do
    let id ← o.arrays[a]?
    let pair ← o.pairs[i]?
    some ((Mls.createGroup pr id (o.pair pair) rand).conclude o fun st =>
      ([], { o with groups := o.groups ++ [st], lent := o.lent ++ [a, pair.2.2.1, pair.2.2.2], lentPairs := o.lentPairs ++ [i] }))
  | .unmarshalWelcome a => do
    let raw ← o.arrays[a]?
    some ((Mls.unmarshalWelcome raw).conclude o fun x => ([], o.addWelcome x))
  | .welcomeBytes x => do
    let x ← o.welcomes[x]?
    some (x.bytes.conclude o fun raw => o.returns [raw])
  | .newMembers x => do
    let x ← o.welcomes[x]?
    some (.ok x.newMembers, o)
  | .groupFromWelcome x i now => do
    let x ← o.welcomes[x]?
    let pair ← o.pairs[i]?
    some ((Mls.groupFromWelcome pr x (o.pair pair) now).conclude o fun st =>
      ([], { o with groups := o.groups ++ [st], lent := o.lent ++ [pair.2.2.1, pair.2.2.2] }))
  | .unmarshalAndProcessMessage g a now => do
    let st ← o.groups[g]?
    let raw ← o.arrays[a]?
    let (r, st') := Mls.unmarshalAndProcessMessage pr st raw now
    let o := { o with groups := o.groups.set g st' }
    some (r.conclude o fun data => o.returns data.toList)
  | .createApplicationMessage g a sigRand guard => do
    let st ← o.groups[g]?
    let data ← o.arrays[a]?
    some ((Mls.createApplicationMessage pr st data sigRand guard).conclude o fun raw => o.returns [raw])
  | .createWelcome g ps r => do
    let st ← o.groups[g]?
    let ks ← ps.mapM fun p => o.packages[p]?
    let (res, st') := Mls.createWelcome pr st ks r
    let o := { o with groups := o.groups.set g st' }
    some (res.conclude o fun x => ([x.2], { o.addWelcome x.1 with arrays := (o.addWelcome x.1).arrays ++ [x.2] }))

/-- One use after the other. -/
def Spec.Own.run (pr : Prims) : Own → List Use → List (Res (List Bytes)) × Own
  | o, [] => ([], o)
  | o, u :: us =>
    match o.step? pr u with
    | none => o.run pr us
    | some (r, o') => (r :: (o'.run pr us).1, (o'.run pr us).2)

/-- The application leaves alone what is lent. -/
def Spec.Own.Allows (o : Own) : Use → Prop
  | .write a _ => a ∉ o.lent
  | .setPublic i _ => i ∉ o.lentPairs
  | _ => True

/-- It does so all the time. -/
def Spec.Own.AllowsAll (pr : Prims) : Own → List Use → Prop
  | _, [] => True
  | o, u :: us => o.Allows u ∧
    match o.step? pr u with
    | none => o.AllowsAll pr us
    | some (_, o') => o'.AllowsAll pr us

/-! ### What is kept -/

/-- The arrays that the objects read. -/
def World.Kept (w : World) (a : Nat) : Prop :=
  a ∈ w.credentials ∨ (∃ p ∈ w.pairs, p.pub.identity = some a) ∨ (∃ p ∈ w.packages, p.identity = some a) ∨ (∃ x ∈ w.welcomes, a ∈ x.refs) ∨
    ∃ g ∈ w.groups, g.groupID = some a ∨ g.leafKey = some a ∨ g.sigKey = a

/-- The objects as values. -/
def World.own (w : World) (lent lentPairs : List Nat) : Spec.Own where
  arrays := w.arrays
  credentials := w.credentials.map fun a => .basic (w.bytes a)
  pairs := w.pairs.map fun p => (w.package p.pub, p.init, p.enc, p.sig)
  packages := w.packages.map w.package
  welcomes := w.welcomes.map w.welcome
  groups := w.groups.map w.group
  lent := lent
  lentPairs := lentPairs

/-- What is kept is there and lent. -/
structure World.Tidy (w : World) (lent lentPairs : List Nat) : Prop where
  arrays : ∀ a, w.Kept a → a < w.arrays.length ∧ a ∈ lent
  keys : ∀ p ∈ w.pairs, p.init < w.arrays.length ∧ p.enc < w.arrays.length ∧ p.sig < w.arrays.length
  pairs : ∀ g ∈ w.groups, ∀ i, g.leaf = some i → i < w.pairs.length ∧ i ∈ lentPairs

theorem World.package_congr {w w' : World} {p : HeldPackage} (h : ∀ a, p.identity = some a → w'.bytes a = w.bytes a) : w'.package p = w.package p := by
  unfold World.package
  split
  · rfl
  · next a ha => rw [h a ha]

theorem World.welcome_congr {w w' : World} {x : HeldWelcome} (h : ∀ a ∈ x.refs, w'.bytes a = w.bytes a) : w'.welcome x = w.welcome x := by
  have key : ∀ (l : List Nat) (ss : List EncryptedGroupSecrets), (∀ a ∈ l, w'.bytes a = w.bytes a) →
      List.zipWith (fun s a => { s with newMember := w'.bytes a }) ss l =
        List.zipWith (fun (s : EncryptedGroupSecrets) a => { s with newMember := w.bytes a }) ss l := by
    intro l
    induction l with
    | nil => simp
    | cons a l ih =>
      intro ss h
      cases ss with
      | nil => simp
      | cons s ss =>
        simp only [List.zipWith_cons_cons]
        rw [h a (by simp), ih ss fun b hb => h b (by simp [hb])]
  unfold World.welcome
  rw [key _ _ h]

theorem World.group_congr {w w' : World} {g : HeldGroup}
    (h : ∀ a, g.groupID = some a ∨ g.leafKey = some a ∨ g.sigKey = a → w'.bytes a = w.bytes a)
    (hp : ∀ i, g.leaf = some i → (w'.pairs[i]?).map (fun p => w'.package p.pub) = (w.pairs[i]?).map fun p => w.package p.pub) : w'.group g = w.group g := by
  have e1 : g.groupID.elim g.state.group.groupContext.groupID w'.bytes = g.groupID.elim g.state.group.groupContext.groupID w.bytes := by
    cases hg : g.groupID with
    | none => rfl
    | some a => exact h a (.inl hg)
  have e2 : (g.leafKey.elim g.state.group.privTree fun a =>
        g.state.group.privTree.set (nodeOfLeaf g.state.group.myLeafIndex.toNat) (some (w'.bytes a))) =
      g.leafKey.elim g.state.group.privTree fun a =>
        g.state.group.privTree.set (nodeOfLeaf g.state.group.myLeafIndex.toNat) (some (w.bytes a)) := by
    cases hg : g.leafKey with
    | none => rfl
    | some a => simp only [Option.elim]; rw [h a (.inr (.inl hg))]
  have e3 : ((g.leaf.bind fun i => w'.pairs[i]?).elim g.state.group.tree fun p =>
        g.state.group.tree.set 0 (some (.leaf (w'.package p.pub).leafNode))) =
      (g.leaf.bind fun i => w.pairs[i]?).elim g.state.group.tree fun p =>
        g.state.group.tree.set 0 (some (.leaf (w.package p.pub).leafNode)) := by
    cases hg : g.leaf with
    | none => rfl
    | some i =>
      have := hp i hg
      simp only [Option.bind_some]
      cases h1 : w'.pairs[i]? <;> cases h2 : w.pairs[i]? <;> simp_all
  unfold World.group
  rw [e1, e2, e3, h g.sigKey (.inr (.inr rfl))]

/-- New arrays and new objects change nothing of the old ones. -/
theorem World.own_extend {w : World} {lent lentPairs lent' lentPairs' : List Nat} (ht : w.Tidy lent lentPairs) (w' : World) {arrays : List Bytes}
    {cs : List Nat} {ps : List HeldPair} {ks : List HeldPackage} {xs : List HeldWelcome} {gs : List HeldGroup} (h1 : w'.arrays = w.arrays ++ arrays)
    (h2 : w'.credentials = w.credentials ++ cs) (h3 : w'.pairs = w.pairs ++ ps) (h4 : w'.packages = w.packages ++ ks) (h5 : w'.welcomes = w.welcomes ++ xs)
    (h6 : w'.groups = w.groups ++ gs) (hl : lent ⊆ lent') (hlp : lentPairs ⊆ lentPairs')
    (k1 : ∀ a ∈ cs, a < w'.arrays.length ∧ a ∈ lent')
    (k2 : ∀ p ∈ ps, (∀ a, p.pub.identity = some a → a < w'.arrays.length ∧ a ∈ lent') ∧
      p.init < w'.arrays.length ∧ p.enc < w'.arrays.length ∧ p.sig < w'.arrays.length)
    (k3 : ∀ p ∈ ks, ∀ a, p.identity = some a → a < w'.arrays.length ∧ a ∈ lent')
    (k4 : ∀ x ∈ xs, ∀ a ∈ x.refs, a < w'.arrays.length ∧ a ∈ lent')
    (k5 : ∀ g ∈ gs, (∀ a, g.groupID = some a ∨ g.leafKey = some a ∨ g.sigKey = a → a < w'.arrays.length ∧ a ∈ lent') ∧
      ∀ i, g.leaf = some i → i < w'.pairs.length ∧ i ∈ lentPairs') :
    w'.Tidy lent' lentPairs' ∧ w'.own lent' lentPairs' =
      { w.own lent' lentPairs' with
        arrays := w.arrays ++ arrays
        credentials := (w.own lent lentPairs).credentials ++ cs.map fun a => .basic (w'.bytes a)
        pairs := (w.own lent lentPairs).pairs ++ ps.map fun p => (w'.package p.pub, p.init, p.enc, p.sig)
        packages := (w.own lent lentPairs).packages ++ ks.map w'.package
        welcomes := (w.own lent lentPairs).welcomes ++ xs.map w'.welcome
        groups := (w.own lent lentPairs).groups ++ gs.map w'.group } := by
  have hlen : w.arrays.length ≤ w'.arrays.length := by rw [h1]; simp
  have hb : ∀ a, w.Kept a → w'.bytes a = w.bytes a := fun a ha => by
    unfold World.bytes
    rw [h1, List.getD_eq_getElem?_getD, List.getElem?_append_left (ht.arrays a ha).1, List.getD_eq_getElem?_getD]
  constructor
  · refine ⟨?_, ?_, ?_⟩
    · have hold : ∀ a, w.Kept a → a < w'.arrays.length ∧ a ∈ lent' := fun a ha => ⟨by have := (ht.arrays a ha).1; omega, hl (ht.arrays a ha).2⟩
      intro a ha
      unfold World.Kept at ha
      rw [h2, h3, h4, h5, h6] at ha
      simp only [List.mem_append] at ha
      rcases ha with (ha | ha) | ⟨p, ha | ha, hp⟩ | ⟨p, ha | ha, hp⟩ | ⟨x, ha | ha, hp⟩ | ⟨g, ha | ha, hp⟩
      · exact hold a (.inl ha)
      · exact k1 a ha
      · exact hold a (.inr (.inl ⟨p, ha, hp⟩))
      · exact (k2 p ha).1 a hp
      · exact hold a (.inr (.inr (.inl ⟨p, ha, hp⟩)))
      · exact k3 p ha a hp
      · exact hold a (.inr (.inr (.inr (.inl ⟨x, ha, hp⟩))))
      · exact k4 x ha a hp
      · exact hold a (.inr (.inr (.inr (.inr ⟨g, ha, hp⟩))))
      · exact (k5 g ha).1 a hp
    · intro p hp
      rw [h3, List.mem_append] at hp
      rcases hp with hp | hp
      · have := ht.keys p hp; omega
      · exact (k2 p hp).2
    · intro g hg i hi
      rw [h6, List.mem_append] at hg
      rcases hg with hg | hg
      · have := ht.pairs g hg i hi
        exact ⟨by rw [h3, List.length_append]; omega, hlp this.2⟩
      · exact (k5 g hg).2 i hi
  · unfold World.own
    congr 1
    · rw [h2, List.map_append]
      congr 1
      exact List.map_congr_left fun a ha => by rw [hb a (.inl ha)]
    · rw [h3, List.map_append]
      congr 1
      exact List.map_congr_left fun p hp => by rw [World.package_congr fun a ha => hb a (.inr (.inl ⟨p, hp, ha⟩))]
    · rw [h4, List.map_append]
      congr 1
      exact List.map_congr_left fun p hp => World.package_congr fun a ha => hb a (.inr (.inr (.inl ⟨p, hp, ha⟩)))
    · rw [h5, List.map_append]
      congr 1
      exact List.map_congr_left fun x hx => World.welcome_congr fun a ha => hb a (.inr (.inr (.inr (.inl ⟨x, hx, ha⟩))))
    · rw [h6, List.map_append]
      congr 1
      refine List.map_congr_left fun g hg => World.group_congr (fun a ha => hb a (.inr (.inr (.inr (.inr ⟨g, hg, ha⟩))))) fun i hi => ?_
      have hlt := (ht.pairs g hg i hi).1
      rw [h3, List.getElem?_append_left hlt, List.getElem?_eq_getElem hlt]
      simp only [Option.map_some, Option.some.injEq]
      exact World.package_congr fun a ha => hb a (.inr (.inl ⟨_, List.getElem_mem hlt, ha⟩))

/-! ### One step -/

theorem conclude_own {α : Type} {r : Res α} {w : World} {lent lentPairs : List Nat} {f : α → List Bytes × World} {f' : α → List Bytes × Spec.Own}
    (ht : w.Tidy lent lentPairs)
    (h : ∀ x, r = .ok x → ∃ lent' lentPairs', f' x = ((f x).1, (f x).2.own lent' lentPairs') ∧ (f x).2.Tidy lent' lentPairs') :
    ∃ lent' lentPairs', r.conclude (w.own lent lentPairs) f' = ((r.conclude w f).1, (r.conclude w f).2.own lent' lentPairs') ∧
      (r.conclude w f).2.Tidy lent' lentPairs' := by
  cases r with
  | ok x =>
    obtain ⟨l, lp, h1, h2⟩ := h x rfl
    exact ⟨l, lp, by simp [Res.conclude, h1], h2⟩
  | _ => exact ⟨lent, lentPairs, rfl, ht⟩

theorem returns_own {w : World} {lent lentPairs : List Nat} (ht : w.Tidy lent lentPairs) (bs : List Bytes) :
    (w.own lent lentPairs).returns bs = ((w.returns bs).1, (w.returns bs).2.own lent lentPairs) ∧ (w.returns bs).2.Tidy lent lentPairs := by
  obtain ⟨h1, h2⟩ := World.own_extend (lent' := lent) (lentPairs' := lentPairs) ht (w.returns bs).2 (arrays := bs) (cs := []) (ps := []) (ks := []) (xs := [])
    (gs := []) rfl (by simp [World.returns]) (by simp [World.returns]) (by simp [World.returns]) (by simp [World.returns]) (by simp [World.returns])
    (fun _ h => h) (fun _ h => h) (by simp) (by simp) (by simp) (by simp) (by simp)
  refine ⟨?_, h1⟩
  rw [h2]
  simp [Spec.Own.returns, World.returns, World.own]

theorem welcome_new {w : World} {x : Welcome} (h : ∀ i, i < x.secrets.length → w.bytes (n + i) = (x.secrets.map EncryptedGroupSecrets.newMember).getD i []) :
    w.welcome ⟨x, List.range' n x.secrets.length⟩ = x := by
  unfold World.welcome
  obtain ⟨cs, ss, gi⟩ := x
  simp only [Welcome.mk.injEq, true_and, and_true] at h ⊢
  induction ss generalizing n with
  | nil => rfl
  | cons s ss ih =>
    have h0 := h 0 (by simp)
    simp only [List.length_cons, List.range'_succ, List.zipWith_cons_cons]
    rw [ih fun i hi => by have := h (i + 1) (by simpa using hi); rw [show n + 1 + i = n + (i + 1) by omega, this]; simp]
    simp only [Nat.add_zero, List.map_cons, List.getD_cons_zero] at h0
    rw [h0]

theorem addWelcome_own {w : World} {lent lentPairs : List Nat} (ht : w.Tidy lent lentPairs) (x : Welcome) :
    ∃ lent', (w.own lent lentPairs).addWelcome x = (w.addWelcome x).own lent' lentPairs ∧ (w.addWelcome x).Tidy lent' lentPairs := by
  have hlen : (w.addWelcome x).arrays.length = w.arrays.length + x.secrets.length := by simp [World.addWelcome, Welcome.newMembers]
  obtain ⟨h1, h2⟩ := World.own_extend (lent' := lent ++ List.range' w.arrays.length x.secrets.length) (lentPairs' := lentPairs) ht (w.addWelcome x)
    (arrays := x.newMembers) (cs := []) (ps := []) (ks := []) (xs := [⟨x, List.range' w.arrays.length x.secrets.length⟩])
    (gs := []) rfl (by simp [World.addWelcome]) (by simp [World.addWelcome]) (by simp [World.addWelcome]) rfl (by simp [World.addWelcome])
    (fun _ h => by simp [h]) (fun _ h => h) (by simp) (by simp) (by simp)
    (by
      simp only [List.mem_singleton, forall_eq]
      intro a ha
      refine ⟨?_, by simp only [List.mem_append]; exact .inr ha⟩
      rw [List.mem_range'_1] at ha
      omega) (by simp)
  refine ⟨_, ?_, h1⟩
  rw [h2]
  have hw : (w.addWelcome x).welcome ⟨x, List.range' w.arrays.length x.secrets.length⟩ = x := welcome_new fun i hi => by
    unfold World.bytes World.addWelcome
    simp only [List.getD_eq_getElem?_getD]
    rw [List.getElem?_append_right (by omega)]
    simp [Welcome.newMembers]
  simp only [List.map_cons, List.map_nil, hw, List.append_nil]
  rfl

/-- What a call makes of a group is what is read afterwards. -/
theorem group_next {w : World} {g : HeldGroup} {st' : GroupState} (h1 : st'.group.groupContext.groupID = (w.group g).group.groupContext.groupID)
    (h2 : st'.group.signaturePriv = (w.group g).group.signaturePriv) (h3 : st'.group.myLeafIndex = (w.group g).group.myLeafIndex) {w' : World}
    (ha : ∀ a, w'.bytes a = w.bytes a) (hp : w'.pairs = w.pairs) : w'.group (g.next (w.group g) st') = st' := by
  have hpk : ∀ p, w'.package p = w.package p := fun p => World.package_congr fun a _ => ha a
  obtain ⟨heap, gr⟩ := st'
  obtain ⟨q, hq⟩ : ∃ q, q = w.group g := ⟨_, rfl⟩
  rw [← hq] at h1 h2 h3 ⊢
  unfold World.group
  simp only [HeldGroup.next, GroupState.mk.injEq, true_and]
  have e1 : g.groupID.elim gr.groupContext.groupID w'.bytes = gr.groupContext.groupID := by
    cases hg : g.groupID with
    | none => rfl
    | some a =>
      simp only at h1
      rw [h1, hq]
      simp [World.group, hg, ha]
  have e2 : w'.bytes g.sigKey = gr.signaturePriv := by rw [ha]; exact (h2.trans (by rw [hq]; rfl)).symm
  rw [e1, e2]
  have e3 : ((if gr.privTree[nodeOfLeaf q.group.myLeafIndex.toNat]? = q.group.privTree[nodeOfLeaf q.group.myLeafIndex.toNat]? then
      g.leafKey else none).elim gr.privTree fun a => gr.privTree.set (nodeOfLeaf gr.myLeafIndex.toNat) (some (w'.bytes a))) = gr.privTree := by
    split
    · next he =>
      cases hg : g.leafKey with
      | none => rfl
      | some a =>
        subst hq
        have hm : gr.myLeafIndex = g.state.group.myLeafIndex := h3
        simp only [Option.elim]
        simp only [World.group, hg, Option.elim, List.getElem?_set, if_true] at he
        rw [hm]
        apply List.ext_getElem?
        intro i
        rw [List.getElem?_set]
        split
        · next hi =>
          subst hi
          rw [he]
          by_cases hl : nodeOfLeaf g.state.group.myLeafIndex.toNat < gr.privTree.length
          · rw [if_pos hl]
            split
            · rw [ha]
            · next hl' =>
              rw [if_neg hl'] at he
              rw [List.getElem?_eq_none_iff] at he
              omega
          · rw [if_neg hl]
            rw [List.getElem?_eq_none_iff.2 (by omega)] at he
            exact he
        · rfl
    · rfl
  have e4 : (((if gr.tree[0]? = q.group.tree[0]? then g.leaf else none).bind fun i => w'.pairs[i]?).elim gr.tree fun p =>
      gr.tree.set 0 (some (.leaf (w'.package p.pub).leafNode))) = gr.tree := by
    split
    · next he =>
      cases hg : g.leaf.bind fun i => w'.pairs[i]? with
      | none => rfl
      | some p =>
        rw [hp] at hg
        subst hq
        simp only [Option.elim]
        simp only [World.group, hg, Option.elim] at he
        rw [hpk]
        cases hgt : gr.tree with
        | nil => rfl
        | cons y ys =>
          rw [hgt] at he
          cases hst : g.state.group.tree with
          | nil => rw [hst] at he; cases he
          | cons z zs =>
            rw [hst] at he
            simp only [List.set_cons_zero, List.getElem?_cons_zero, Option.some.injEq] at he
            rw [he]
            rfl
    · rfl
  rw [e3, e4]

theorem group_set_own {w : World} {lent lentPairs : List Nat} (ht : w.Tidy lent lentPairs) {g : Nat} {held : HeldGroup} (hg : w.groups[g]? = some held)
    {st' : GroupState} (h1 : st'.group.groupContext.groupID = (w.group held).group.groupContext.groupID)
    (h2 : st'.group.signaturePriv = (w.group held).group.signaturePriv) (h3 : st'.group.myLeafIndex = (w.group held).group.myLeafIndex) :
    ({ w with groups := w.groups.set g (held.next (w.group held) st') } : World).own lent lentPairs =
        { w.own lent lentPairs with groups := (w.own lent lentPairs).groups.set g st' } ∧
      ({ w with groups := w.groups.set g (held.next (w.group held) st') } : World).Tidy lent lentPairs := by
  have hm := List.mem_of_getElem? hg
  constructor
  · simp only [World.own, List.map_set]
    congr 1
    congr 1
    exact group_next h1 h2 h3 (w' := { w with groups := w.groups.set g (held.next (w.group held) st') }) (fun _ => rfl) rfl
  · refine ⟨?_, ht.keys, ?_⟩
    · intro a ha
      apply ht.arrays a
      rcases ha with ha | ha | ha | ha | ⟨g', hg', ha⟩
      · exact .inl ha
      · exact .inr (.inl ha)
      · exact .inr (.inr (.inl ha))
      · exact .inr (.inr (.inr (.inl ha)))
      · rcases List.mem_or_eq_of_mem_set hg' with hg' | rfl
        · exact .inr (.inr (.inr (.inr ⟨g', hg', ha⟩)))
        · refine .inr (.inr (.inr (.inr ⟨held, hm, ?_⟩)))
          rcases ha with ha | ha | ha
          · exact .inl ha
          · simp only [HeldGroup.next] at ha
            split at ha
            · exact .inr (.inl ha)
            · cases ha
          · exact .inr (.inr ha)
    · intro g' hg' i hi
      rcases List.mem_or_eq_of_mem_set hg' with hg' | rfl
      · exact ht.pairs g' hg' i hi
      · simp only [HeldGroup.next] at hi
        split at hi
        · exact ht.pairs held hm i hi
        · cases hi

theorem upm_keeps {st st' : GroupState} {raw : Bytes} {now : GoTime} {r : Res (Option Bytes)}
    (h : unmarshalAndProcessMessage pr st raw now = (r, st')) :
    st'.group.groupContext.groupID = st.group.groupContext.groupID ∧ st'.group.signaturePriv = st.group.signaturePriv ∧
      st'.group.myLeafIndex = st.group.myLeafIndex := by
  cases r with
  | ok r =>
    obtain ⟨a, e, hca, ⟨p, hk, -, hp⟩ | ⟨c, hk, -, -⟩ | ⟨data, hk, -, rfl, -⟩⟩ := accepted_cases h
    · rcases processProposal_cases (pr := pr) st a p hk with ⟨ref, h3, h4⟩ | ⟨h3, _⟩
      · rw [hp] at h4; cases h4; exact ⟨rfl, rfl, rfl⟩
      · rw [hp] at h3; exact absurd rfl h3
    · obtain ⟨l, hp, t, _, _, _, h4⟩ := accepted_commit hca hk h
      obtain ⟨_, _, _, g1, _, g2, g3, _⟩ := finishCommit_group h4
      exact ⟨g1, g3, g2⟩
    · exact ⟨rfl, rfl, rfl⟩
  | _ => rcases rejected_cases h (by simp) with rfl | ⟨a, e, c, ps, ss, h', t, _, _, _, _, rfl, _⟩ <;> exact ⟨rfl, rfl, rfl⟩

theorem generated_credential {cs : UInt16} {c : Credential} {r : KeyPackageRand} {kp : KeyPairPackage} (h : generateKeyPairPackage pr cs c r = .ok kp) :
    kp.pub.leafNode.credential = c := by
  unfold generateKeyPairPackage at h
  simp only [Res.bind_ok_iff] at h
  obtain ⟨⟨ip, is⟩, h1, ⟨ep, es⟩, h2, d, h3, leaf, h4, kp', h5, h⟩ := h
  cases h
  unfold KeyPackage.sign at h5
  unfold LeafNode.sign at h4
  simp only [Res.bind_ok_iff] at h4 h5
  obtain ⟨_, _, _, _, h5⟩ := h5
  obtain ⟨_, _, _, _, h4⟩ := h4
  cases h4
  cases h5
  rfl

theorem created_shares {id : Bytes} {kp : KeyPairPackage} {rand : Nat → UInt8} {st : GroupState} (h : createGroup pr id kp rand = .ok st) :
    st.group.groupContext.groupID = id ∧ st.group.signaturePriv = kp.priv.signatureKey ∧
      st.group.privTree[nodeOfLeaf st.group.myLeafIndex.toNat]? = some (some kp.priv.encryptionKey) ∧ st.group.tree[0]? = some (some (.leaf kp.pub.leafNode)) := by
  unfold createGroup at h
  simp only [Res.bind_ok_iff] at h
  obtain ⟨⟨hp, t⟩, h1, pt, h2, _, _, d, h3, _, _, _, _, _, _, _, _, h⟩ := h
  have e : treeAdd [] [none] kp.pub.leafNode = .ok ([], [some (.leaf kp.pub.leafNode)]) := rfl
  rw [e] at h1
  cases h1
  cases h2
  cases h
  exact ⟨rfl, rfl, rfl, rfl⟩

theorem joined_shares {x : Welcome} {kp : KeyPairPackage} {now : GoTime} {st : GroupState} (h : groupFromWelcome pr x kp now = .ok st) :
    st.group.signaturePriv = kp.priv.signatureKey := by
  unfold groupFromWelcome at h
  simp only [Res.bind_ok_iff] at h
  obtain ⟨ref, _, gs, _, _, _, _, _, h⟩ := h
  obtain ⟨_, _, _, _, _, _, _, _, _, _, _, _, _, _, _, _, _, _, _, _, _, _, _, _, _, _, _, hs, _⟩ := groupFromSecrets_ok h
  exact hs

theorem mapM_own {w : World} {lent lentPairs : List Nat} (ps : List Nat) :
    (ps.mapM fun p => (w.own lent lentPairs).packages[p]?) = (ps.mapM fun p => w.packages[p]?).map fun l => l.map w.package := by
  induction ps with
  | nil => rfl
  | cons p ps ih =>
    rw [List.mapM_cons, List.mapM_cons, ih]
    simp only [World.own, List.getElem?_map]
    cases w.packages[p]? with
    | none => rfl
    | some k => cases ps.mapM fun p => w.packages[p]? <;> rfl

/-- A step of the library is a step of the specification, if what is lent is left alone. -/
theorem step_own {w : World} {lent lentPairs : List Nat} (ht : w.Tidy lent lentPairs) {u : Use} (hu : (w.own lent lentPairs).Allows u) :
    match w.step? pr u with
    | none => (w.own lent lentPairs).step? pr u = none
    | some (r, w') => ∃ lent' lentPairs', (w.own lent lentPairs).step? pr u = some (r, w'.own lent' lentPairs') ∧ w'.Tidy lent' lentPairs' := by
  have hpairs : ∀ i : Nat, (w.own lent lentPairs).pairs[i]? = (w.pairs[i]?).map fun p => (w.package p.pub, p.init, p.enc, p.sig) := fun i => by
    simp [World.own]
  have hpkgs : ∀ i : Nat, (w.own lent lentPairs).packages[i]? = (w.packages[i]?).map w.package := fun i => by simp [World.own]
  have hwel : ∀ i : Nat, (w.own lent lentPairs).welcomes[i]? = (w.welcomes[i]?).map w.welcome := fun i => by simp [World.own]
  have hgrp : ∀ i : Nat, (w.own lent lentPairs).groups[i]? = (w.groups[i]?).map w.group := fun i => by simp [World.own]
  have harr : (w.own lent lentPairs).arrays = w.arrays := rfl
  have hlt : ∀ {a : Nat} {b : Bytes}, w.arrays[a]? = some b → a < w.arrays.length := fun h => (List.getElem?_eq_some_iff.1 h).1
  have hby : ∀ {a : Nat} {b : Bytes}, w.arrays[a]? = some b → w.bytes a = b := fun h => by
    unfold World.bytes; rw [List.getD_eq_getElem?_getD, h]; rfl
  -- the group that CreateGroup and GroupFromWelcome make
  have hgroup : ∀ {st : GroupState} {pair : HeldPair} {i : Nat} {id : Option Nat} {key : Option Nat} {leaf : Option Nat} {w' : World},
      w.pairs[i]? = some pair → w'.arrays = w.arrays → w'.pairs = w.pairs → (∀ a, id = some a → st.group.groupContext.groupID = w.bytes a) →
      st.group.signaturePriv = w.bytes pair.sig → (∀ a, key = some a → st.group.privTree[nodeOfLeaf st.group.myLeafIndex.toNat]? = some (some (w.bytes a))) →
      (leaf = some i → st.group.tree[0]? = some (some (.leaf (w.package pair.pub).leafNode))) → (leaf = none ∨ leaf = some i) →
      w'.group ⟨st, id, key, pair.sig, leaf⟩ = st := by
    intro st pair i id key leaf w' hp ha hps h1 h2 h3 h4 h5
    obtain ⟨heap, gr⟩ := st
    have hb : w'.bytes = w.bytes := by funext a; unfold World.bytes; rw [ha]
    have e1 : id.elim gr.groupContext.groupID w.bytes = gr.groupContext.groupID := by
      cases id with
      | none => rfl
      | some a => exact (h1 a rfl).symm
    have e2 : (key.elim gr.privTree fun a => gr.privTree.set (nodeOfLeaf gr.myLeafIndex.toNat) (some (w.bytes a))) = gr.privTree := by
      cases key with
      | none => rfl
      | some a =>
        have h3 := h3 a rfl
        simp only at h3
        apply List.ext_getElem?
        intro j
        simp only [Option.elim]
        rw [List.getElem?_set]
        split
        · next hj =>
          subst hj
          rw [if_pos (List.getElem?_eq_some_iff.1 h3).1]
          exact h3.symm
        · rfl
    have e3 : (leaf.bind fun i => w'.pairs[i]?).elim gr.tree (fun p => gr.tree.set 0 (some (.leaf (w'.package p.pub).leafNode))) = gr.tree := by
      rcases h5 with rfl | rfl
      · rfl
      · rw [hps]
        simp only [Option.bind_some, hp, Option.elim]
        rw [World.package_congr (w := w) (w' := w') fun a _ => by rw [hb]]
        have := h4 rfl
        simp only at this
        cases hgt : gr.tree with
        | nil => rw [hgt] at this; cases this
        | cons y ys =>
          rw [hgt] at this
          simp only [List.getElem?_cons_zero, Option.some.injEq] at this
          rw [this]; rfl
    unfold World.group
    simp only [hb]
    rw [e1, e2, e3, ← h2]
  cases u with
  | make b =>
    simp only [World.step?, Spec.Own.step?]
    obtain ⟨h1, h2⟩ := World.own_extend (lent' := lent) (lentPairs' := lentPairs) ht { w with arrays := w.arrays ++ [b] } (arrays := [b]) (cs := []) (ps := [])
      (ks := []) (xs := []) (gs := []) rfl (by simp) (by simp) (by simp) (by simp) (by simp) (fun _ h => h) (fun _ h => h) (by simp) (by simp) (by simp) (by simp)
      (by simp)
    exact ⟨lent, lentPairs, by rw [h2]; simp [World.own], h1⟩
  | write a b =>
    simp only [World.step?, Spec.Own.step?, harr]
    cases hw : w.arrays[a]? with
    | none => simp
    | some old =>
      simp only [Option.bind_eq_bind, Option.bind_some]
      by_cases hl : old.length = b.length
      · rw [if_pos hl, if_pos hl]
        have hb : ∀ c, w.Kept c → (⟨w.arrays.set a b, w.credentials, w.pairs, w.packages, w.welcomes, w.groups⟩ : World).bytes c = w.bytes c := fun c hc => by
          unfold World.bytes
          have hne : a ≠ c := fun h => hu (h ▸ (ht.arrays c hc).2)
          simp only [List.getD_eq_getElem?_getD, List.getElem?_set_ne hne]
        refine ⟨lent, lentPairs, ?_, ?_⟩
        · simp only [World.own, Option.some.injEq, Prod.mk.injEq, true_and]
          congr 1
          · exact List.map_congr_left fun c hc => by rw [hb c (.inl hc)]
          · exact List.map_congr_left fun p hp => by rw [World.package_congr fun c hc => hb c (.inr (.inl ⟨p, hp, hc⟩))]
          · exact List.map_congr_left fun p hp => (World.package_congr fun c hc => hb c (.inr (.inr (.inl ⟨p, hp, hc⟩)))).symm
          · exact List.map_congr_left fun x hx => (World.welcome_congr fun c hc => hb c (.inr (.inr (.inr (.inl ⟨x, hx, hc⟩))))).symm
          · refine List.map_congr_left fun g hg => (World.group_congr (fun c hc => hb c (.inr (.inr (.inr (.inr ⟨g, hg, hc⟩))))) fun i hi => ?_).symm
            cases hp : w.pairs[i]? with
            | none => rfl
            | some p =>
              simp only [Option.map_some, Option.some.injEq]
              exact World.package_congr fun c hc => hb c (.inr (.inl ⟨p, List.mem_of_getElem? hp, hc⟩))
        · refine ⟨fun c hc => ?_, fun p hp => ?_, ht.pairs⟩
          · simpa using ht.arrays c hc
          · simpa using ht.keys p hp
      · simp [hl]
  | setPublic i p =>
    simp only [World.step?, Spec.Own.step?, hpairs, hpkgs]
    cases hi : w.pairs[i]? with
    | none => simp
    | some pair =>
      cases hp : w.packages[p]? with
      | none => simp
      | some pkg =>
        simp only [Option.bind_eq_bind, Option.bind_some, Option.map_some]
        refine ⟨lent, lentPairs, ?_, ?_⟩
        · simp only [World.own, Option.some.injEq, Prod.mk.injEq, true_and]
          congr 1
          · simp only [List.map_set]
            rfl
          · refine List.map_congr_left fun g hg => (World.group_congr (w := w)
              (w' := ⟨w.arrays, w.credentials, w.pairs.set i ⟨pkg, pair.init, pair.enc, pair.sig⟩, w.packages, w.welcomes, w.groups⟩)
              (fun c hc => rfl) fun j hj => ?_).symm
            have hne : i ≠ j := fun h => hu (h ▸ (ht.pairs g hg j hj).2)
            simp only [List.getElem?_set_ne hne]
            rfl
        · refine ⟨fun c hc => ?_, fun q hq => ?_, fun g hg j hj => ?_⟩
          · apply ht.arrays c
            rcases hc with hc | ⟨q, hq, hc⟩ | hc
            · exact .inl hc
            · rcases List.mem_or_eq_of_mem_set hq with hq | rfl
              · exact .inr (.inl ⟨q, hq, hc⟩)
              · exact .inr (.inr (.inl ⟨pkg, List.mem_of_getElem? hp, hc⟩))
            · exact .inr (.inr hc)
          · rcases List.mem_or_eq_of_mem_set hq with hq | rfl
            · exact ht.keys q hq
            · exact ht.keys pair (List.mem_of_getElem? hi)
          · simpa using ht.pairs g hg j hj
  | setPrivate i a b c =>
    simp only [World.step?, Spec.Own.step?, hpairs, harr]
    cases hi : w.pairs[i]? with
    | none => simp
    | some pair =>
      cases ha : w.arrays[a]? with
      | none => simp
      | some _ =>
        cases hb : w.arrays[b]? with
        | none => simp
        | some _ =>
          cases hc : w.arrays[c]? with
          | none => simp
          | some _ =>
            simp only [Option.bind_eq_bind, Option.bind_some, Option.map_some]
            refine ⟨lent, lentPairs, ?_, ?_⟩
            · simp only [World.own, Option.some.injEq, Prod.mk.injEq, true_and]
              congr 1
              · simp only [List.map_set]
                rfl
              · refine List.map_congr_left fun g hg => (World.group_congr (w := w)
                  (w' := ⟨w.arrays, w.credentials, w.pairs.set i ⟨pair.pub, a, b, c⟩, w.packages, w.welcomes, w.groups⟩)
                  (fun c hc => rfl) fun j hj => ?_).symm
                simp only [List.getElem?_set]
                split
                · next h =>
                  subst h
                  rw [hi, if_pos (List.getElem?_eq_some_iff.1 hi).1]
                  rfl
                · rfl
            · refine ⟨fun d hd => ?_, fun q hq => ?_, fun g hg j hj => ?_⟩
              · apply ht.arrays d
                rcases hd with hd | ⟨q, hq, hd⟩ | hd
                · exact .inl hd
                · rcases List.mem_or_eq_of_mem_set hq with hq | rfl
                  · exact .inr (.inl ⟨q, hq, hd⟩)
                  · exact .inr (.inl ⟨pair, List.mem_of_getElem? hi, hd⟩)
                · exact .inr (.inr hd)
              · rcases List.mem_or_eq_of_mem_set hq with hq | rfl
                · exact ht.keys q hq
                · exact ⟨hlt ha, hlt hb, hlt hc⟩
              · simpa using ht.pairs g hg j hj
  | takePublic i =>
    simp only [World.step?, Spec.Own.step?, hpairs]
    cases hi : w.pairs[i]? with
    | none => simp
    | some pair =>
      simp only [Option.bind_eq_bind, Option.bind_some, Option.map_some]
      obtain ⟨h1, h2⟩ := World.own_extend (lent' := lent) (lentPairs' := lentPairs) ht { w with packages := w.packages ++ [pair.pub] } (arrays := []) (cs := [])
        (ps := []) (ks := [pair.pub]) (xs := []) (gs := []) (by simp) (by simp) (by simp) (by simp) (by simp) (by simp) (fun _ h => h) (fun _ h => h) (by simp) (by simp)
        (by simpa using fun a ha => ht.arrays a (.inr (.inl ⟨pair, List.mem_of_getElem? hi, ha⟩))) (by simp) (by simp)
      exact ⟨lent, lentPairs, by rw [h2]; simp only [World.own, List.map_nil, List.append_nil]; rfl, h1⟩
  | newBasicCredential a =>
    simp only [World.step?, Spec.Own.step?, harr]
    cases ha : w.arrays[a]? with
    | none => simp
    | some b =>
      simp only [Option.bind_eq_bind, Option.bind_some]
      obtain ⟨h1, h2⟩ := World.own_extend (lent' := lent ++ [a]) (lentPairs' := lentPairs) ht { w with credentials := w.credentials ++ [a] } (arrays := [])
        (cs := [a]) (ps := []) (ks := []) (xs := []) (gs := []) (by simp) (by simp) (by simp) (by simp) (by simp) (by simp) (fun _ h => by simp [h]) (fun _ h => h)
        (by simpa using hlt ha) (by simp) (by simp) (by simp) (by simp)
      refine ⟨lent ++ [a], lentPairs, ?_, h1⟩
      rw [h2]
      simp only [World.own, List.map_nil, List.append_nil, List.map_cons, Option.some.injEq, Prod.mk.injEq, true_and]
      have : (⟨w.arrays, w.credentials ++ [a], w.pairs, w.packages, w.welcomes, w.groups⟩ : World).bytes a = b := hby ha
      rw [this]
  | generateKeyPairPackage c cs r =>
    simp only [World.step?, Spec.Own.step?]
    have hcr : (w.own lent lentPairs).credentials[c]? = (w.credentials[c]?).map fun a => .basic (w.bytes a) := by simp [World.own]
    rw [hcr]
    cases hc : w.credentials[c]? with
    | none => simp
    | some a =>
      simp only [Option.bind_eq_bind, Option.bind_some, Option.map_some]
      have hk := ht.arrays a (.inl (List.mem_of_getElem? hc))
      obtain ⟨l', lp', g1, g2⟩ := conclude_own (r := generateKeyPairPackage pr cs (.basic (w.bytes a)) r) (f := fun kp =>
          ([], { w with arrays := w.arrays ++ [kp.priv.initKey, kp.priv.encryptionKey, kp.priv.signatureKey],
                        pairs := w.pairs ++ [⟨⟨kp.pub, some a⟩, w.arrays.length, w.arrays.length + 1, w.arrays.length + 2⟩] }))
          (f' := fun kp => ([], { w.own lent lentPairs with
            arrays := (w.own lent lentPairs).arrays ++ [kp.priv.initKey, kp.priv.encryptionKey, kp.priv.signatureKey],
            pairs := (w.own lent lentPairs).pairs ++ [(kp.pub, (w.own lent lentPairs).arrays.length, (w.own lent lentPairs).arrays.length + 1,
              (w.own lent lentPairs).arrays.length + 2)] })) ht fun kp hkp => by
        obtain ⟨h1, h2⟩ := World.own_extend (lent' := lent) (lentPairs' := lentPairs) ht
          { w with arrays := w.arrays ++ [kp.priv.initKey, kp.priv.encryptionKey, kp.priv.signatureKey], pairs := w.pairs ++ [⟨⟨kp.pub, some a⟩, w.arrays.length, w.arrays.length + 1, w.arrays.length + 2⟩] }
          (arrays := [kp.priv.initKey, kp.priv.encryptionKey, kp.priv.signatureKey]) (cs := [])
          (ps := [⟨⟨kp.pub, some a⟩, w.arrays.length, w.arrays.length + 1, w.arrays.length + 2⟩]) (ks := []) (xs := []) (gs := []) rfl (by simp) rfl
          (by simp) (by simp) (by simp) (fun _ h => h) (fun _ h => h) (by simp)
          (by simpa using ⟨by omega, hk.2⟩) (by simp) (by simp) (by simp)
        refine ⟨lent, lentPairs, ?_, h1⟩
        rw [h2]
        simp only [World.own, List.map_nil, List.append_nil, List.map_cons]
        have hid : kp.pub.leafNode.credential = .basic (w.bytes a) := generated_credential hkp
        have hpk : ∀ w' : World, w'.bytes a = w.bytes a → w'.package ⟨kp.pub, some a⟩ = kp.pub := fun w' hb => by
          unfold World.package
          simp only [hb, ← hid]
        rw [hpk _ (by unfold World.bytes; simp only [List.getD_eq_getElem?_getD]; rw [List.getElem?_append_left hk.1])]
      exact ⟨l', lp', congrArg some g1, g2⟩
  | unmarshalKeyPackage a =>
    simp only [World.step?, Spec.Own.step?, harr]
    cases ha : w.arrays[a]? with
    | none => simp
    | some raw =>
      simp only [Option.bind_eq_bind, Option.bind_some]
      obtain ⟨l', lp', g1, g2⟩ := conclude_own (r := unmarshalKeyPackage raw) (f := fun k => ([], { w with packages := w.packages ++ [⟨k, none⟩] }))
          (f' := fun k => ([], { w.own lent lentPairs with packages := (w.own lent lentPairs).packages ++ [k] })) ht fun k hk => by
        obtain ⟨h1, h2⟩ := World.own_extend (lent' := lent) (lentPairs' := lentPairs) ht { w with packages := w.packages ++ [⟨k, none⟩] } (arrays := []) (cs := [])
          (ps := []) (ks := [⟨k, none⟩]) (xs := []) (gs := []) (by simp) (by simp) (by simp) (by simp) (by simp) (by simp) (fun _ h => h) (fun _ h => h) (by simp)
          (by simp) (by simp) (by simp) (by simp)
        refine ⟨lent, lentPairs, ?_, h1⟩
        rw [h2]
        simp only [World.own, List.map_nil, List.append_nil, List.map_cons]
        rfl
      exact ⟨l', lp', congrArg some g1, g2⟩
  | keyPackageBytes p =>
    simp only [World.step?, Spec.Own.step?, hpkgs]
    cases hp : w.packages[p]? with
    | none => simp
    | some pkg =>
      simp only [Option.bind_eq_bind, Option.bind_some, Option.map_some]
      obtain ⟨l', lp', g1, g2⟩ := conclude_own (r := (w.package pkg).bytes) ht fun raw _ => ⟨lent, lentPairs, returns_own ht [raw]⟩
      exact ⟨l', lp', congrArg some g1, g2⟩
  | generateRef p =>
    simp only [World.step?, Spec.Own.step?, hpkgs]
    cases hp : w.packages[p]? with
    | none => simp
    | some pkg =>
      simp only [Option.bind_eq_bind, Option.bind_some, Option.map_some]
      obtain ⟨l', lp', g1, g2⟩ := conclude_own (r := (w.package pkg).generateRef pr) ht fun raw _ => ⟨lent, lentPairs, returns_own ht [raw]⟩
      exact ⟨l', lp', congrArg some g1, g2⟩
  | createGroup a i rand =>
    simp only [World.step?, Spec.Own.step?, hpairs, harr]
    cases ha : w.arrays[a]? with
    | none => simp
    | some id =>
      cases hi : w.pairs[i]? with
      | none => simp
      | some pair =>
        simp only [Option.bind_eq_bind, Option.bind_some, Option.map_some]
        have hk := ht.keys pair (List.mem_of_getElem? hi)
        obtain ⟨l', lp', g1, g2⟩ := conclude_own (r := createGroup pr id (w.pair pair) rand)
            (f := fun st => ([], { w with groups := w.groups ++ [⟨st, some a, some pair.enc, pair.sig, some i⟩] }))
            (f' := fun st => ([], { w.own lent lentPairs with
              groups := (w.own lent lentPairs).groups ++ [st]
              lent := (w.own lent lentPairs).lent ++ [a, pair.enc, pair.sig]
              lentPairs := (w.own lent lentPairs).lentPairs ++ [i] })) ht fun st hst => by
          obtain ⟨h1, h2⟩ := World.own_extend (lent' := lent ++ [a, pair.enc, pair.sig]) (lentPairs' := lentPairs ++ [i]) ht
            { w with groups := w.groups ++ [⟨st, some a, some pair.enc, pair.sig, some i⟩] } (arrays := []) (cs := []) (ps := []) (ks := []) (xs := [])
            (gs := [⟨st, some a, some pair.enc, pair.sig, some i⟩]) (by simp) (by simp) (by simp) (by simp) (by simp) (by simp) (fun _ h => by simp [h])
            (fun _ h => by simp [h]) (by simp) (by simp) (by simp) (by simp)
            (by
              simp only [forall_eq, Option.some.injEq, List.mem_append, List.mem_cons, List.not_mem_nil, or_false]
              refine ⟨?_, ?_⟩
              · rintro b (rfl | rfl | rfl)
                · exact ⟨hlt ha, by simp⟩
                · exact ⟨hk.2.1, by simp⟩
                · exact ⟨hk.2.2, by simp⟩
              · rintro j rfl
                exact ⟨(List.getElem?_eq_some_iff.1 hi).1, by simp⟩)
          refine ⟨_, _, ?_, h1⟩
          rw [h2]
          obtain ⟨q1, q2, q3, q4⟩ := created_shares hst
          simp only [List.map_nil, List.append_nil, List.map_cons]
          have hnew : ({ w with groups := w.groups ++ [⟨st, some a, some pair.enc, pair.sig, some i⟩] } : World).group ⟨st, some a, some pair.enc, pair.sig, some i⟩ = st := hgroup hi rfl rfl
            (fun b hb => by cases hb; rw [hby ha]; exact q1) q2 (fun b hb => by cases hb; exact q3) (fun _ => q4) (.inr rfl)
          rw [hnew]
          rfl
        exact ⟨l', lp', congrArg some g1, g2⟩
  | unmarshalWelcome a =>
    simp only [World.step?, Spec.Own.step?, harr]
    cases ha : w.arrays[a]? with
    | none => simp
    | some raw =>
      simp only [Option.bind_eq_bind, Option.bind_some]
      obtain ⟨l', lp', g1, g2⟩ := conclude_own (r := unmarshalWelcome raw) (f := fun x => ([], w.addWelcome x))
          (f' := fun x => ([], (w.own lent lentPairs).addWelcome x)) ht fun x _ => by
        obtain ⟨l', h1, h2⟩ := addWelcome_own ht x
        exact ⟨l', lentPairs, by rw [h1], h2⟩
      exact ⟨l', lp', congrArg some g1, g2⟩
  | welcomeBytes x =>
    simp only [World.step?, Spec.Own.step?, hwel]
    cases hx : w.welcomes[x]? with
    | none => simp
    | some x =>
      simp only [Option.bind_eq_bind, Option.bind_some, Option.map_some]
      obtain ⟨l', lp', g1, g2⟩ := conclude_own (r := (w.welcome x).bytes) ht fun raw _ => ⟨lent, lentPairs, returns_own ht [raw]⟩
      exact ⟨l', lp', congrArg some g1, g2⟩
  | newMembers x =>
    simp only [World.step?, Spec.Own.step?, hwel]
    cases hx : w.welcomes[x]? with
    | none => simp
    | some x => exact ⟨lent, lentPairs, rfl, ht⟩
  | groupFromWelcome x i now =>
    simp only [World.step?, Spec.Own.step?, hwel, hpairs]
    cases hx : w.welcomes[x]? with
    | none => simp
    | some x =>
      cases hi : w.pairs[i]? with
      | none => simp
      | some pair =>
        simp only [Option.bind_eq_bind, Option.bind_some, Option.map_some]
        have hk := ht.keys pair (List.mem_of_getElem? hi)
        obtain ⟨l', lp', g1, g2⟩ := conclude_own (r := groupFromWelcome pr (w.welcome x) (w.pair pair) now)
            (f := fun st => ([], { w with groups := w.groups ++ [⟨st, none,
              if st.group.privTree[nodeOfLeaf st.group.myLeafIndex.toNat]? = some (some (w.bytes pair.enc)) then some pair.enc else none, pair.sig, none⟩] }))
            (f' := fun st => ([], { w.own lent lentPairs with
              groups := (w.own lent lentPairs).groups ++ [st]
              lent := (w.own lent lentPairs).lent ++ [pair.enc, pair.sig] })) ht fun st hst => by
          obtain ⟨h1, h2⟩ := World.own_extend (lent' := lent ++ [pair.enc, pair.sig]) (lentPairs' := lentPairs) ht
            { w with groups := w.groups ++ [⟨st, none,
              if st.group.privTree[nodeOfLeaf st.group.myLeafIndex.toNat]? = some (some (w.bytes pair.enc)) then some pair.enc else none, pair.sig, none⟩] } (arrays := []) (cs := []) (ps := []) (ks := []) (xs := [])
            (gs := [⟨st, none,
              if st.group.privTree[nodeOfLeaf st.group.myLeafIndex.toNat]? = some (some (w.bytes pair.enc)) then some pair.enc else none, pair.sig, none⟩]) (by simp) (by simp) (by simp) (by simp) (by simp) (by simp) (fun _ h => by simp [h])
            (fun _ h => h) (by simp) (by simp) (by simp) (by simp)
            (by
              simp only [forall_eq, List.mem_append, List.mem_cons, List.not_mem_nil, or_false, reduceCtorEq, false_or,
                false_implies, implies_true, and_true]
              rintro b (hb | rfl)
              · split at hb
                · cases hb; exact ⟨hk.2.1, by simp⟩
                · cases hb
              · exact ⟨hk.2.2, by simp⟩)
          refine ⟨_, _, ?_, h1⟩
          rw [h2]
          have q2 : st.group.signaturePriv = w.bytes pair.sig := joined_shares hst
          simp only [List.map_nil, List.append_nil, List.map_cons]
          have hnew : World.group { w with groups := w.groups ++ [⟨st, none,
              if st.group.privTree[nodeOfLeaf st.group.myLeafIndex.toNat]? = some (some (w.bytes pair.enc)) then some pair.enc else none, pair.sig, none⟩] }
              ⟨st, none, if st.group.privTree[nodeOfLeaf st.group.myLeafIndex.toNat]? = some (some (w.bytes pair.enc)) then some pair.enc else none, pair.sig, none⟩ = st := hgroup hi rfl rfl
            (fun b hb => by cases hb) q2 (fun b hb => by rw [Option.ite_none_right_eq_some] at hb; obtain ⟨h, hb⟩ := hb; cases hb; exact h)
            (fun h => by cases h) (.inl rfl)
          rw [hnew]
          rfl
        exact ⟨l', lp', congrArg some g1, g2⟩
  | unmarshalAndProcessMessage g a now =>
    simp only [World.step?, Spec.Own.step?, hgrp, harr]
    cases hg : w.groups[g]? with
    | none => simp
    | some held =>
      cases ha : w.arrays[a]? with
      | none => simp
      | some raw =>
        simp only [Option.bind_eq_bind, Option.bind_some, Option.map_some]
        rcases hm : unmarshalAndProcessMessage pr (w.group held) raw now with ⟨r, st'⟩
        obtain ⟨q1, q2, q3⟩ := upm_keeps hm
        obtain ⟨h1, h2⟩ := group_set_own ht hg q1 q2 q3
        obtain ⟨l', lp', g1, g2⟩ := conclude_own (r := r) h2 fun data _ => ⟨lent, lentPairs, returns_own h2 data.toList⟩
        rw [h1] at g1
        exact ⟨l', lp', congrArg some g1, g2⟩
  | createApplicationMessage g a sigRand guard =>
    simp only [World.step?, Spec.Own.step?, hgrp, harr]
    cases hg : w.groups[g]? with
    | none => simp
    | some held =>
      cases ha : w.arrays[a]? with
      | none => simp
      | some data =>
        simp only [Option.bind_eq_bind, Option.bind_some, Option.map_some]
        obtain ⟨l', lp', g1, g2⟩ := conclude_own (r := createApplicationMessage pr (w.group held) data sigRand guard) ht
          fun raw _ => ⟨lent, lentPairs, returns_own ht [raw]⟩
        exact ⟨l', lp', congrArg some g1, g2⟩
  | createWelcome g ps r =>
    simp only [World.step?, Spec.Own.step?, hgrp, mapM_own]
    cases hg : w.groups[g]? with
    | none => simp
    | some held =>
      cases hps : ps.mapM fun p => w.packages[p]? with
      | none => simp
      | some pkgs =>
        simp only [Option.bind_eq_bind, Option.bind_some, Option.map_some]
        have hgr := createWelcome_group (pr := pr) (w.group held) (pkgs.map w.package) r
        rcases hm : createWelcome pr (w.group held) (pkgs.map w.package) r with ⟨res, st'⟩
        rw [hm] at hgr
        simp only at hgr ⊢
        obtain ⟨h1, h2⟩ := group_set_own ht hg (st' := st') (by rw [hgr]) (by rw [hgr]) (by rw [hgr])
        obtain ⟨l', lp', g1, g2⟩ := conclude_own (r := res) (f := fun x => ([x.2],
            { ({ w with groups := w.groups.set g (held.next (w.group held) st') } : World).addWelcome x.1 with
              arrays := (({ w with groups := w.groups.set g (held.next (w.group held) st') } : World).addWelcome x.1).arrays ++ [x.2] }))
          (f' := fun x => ([x.2], { (({ w with groups := w.groups.set g (held.next (w.group held) st') } : World).own lent lentPairs).addWelcome x.1 with
            arrays := ((({ w with groups := w.groups.set g (held.next (w.group held) st') } : World).own lent lentPairs).addWelcome x.1).arrays ++ [x.2] }))
          h2 fun x _ => by
            obtain ⟨l', k1, k2⟩ := addWelcome_own h2 x.1
            obtain ⟨k3, k4⟩ := returns_own k2 [x.2]
            refine ⟨l', lentPairs, ?_, k4⟩
            rw [k1]
            exact k3
        rw [h1] at g1
        exact ⟨l', lp', congrArg some g1, g2⟩

/-! ### C122 -/

/-- Nothing is there yet. -/
def World.empty : World := ⟨[], [], [], [], [], []⟩

/-- Nothing is there yet. -/
def Spec.Own.empty : Own := ⟨[], [], [], [], [], [], [], []⟩

theorem empty_tidy : World.empty.Tidy [] [] := by
  refine ⟨?_, ?_, ?_⟩
  · rintro a (h | ⟨_, h, _⟩ | ⟨_, h, _⟩ | ⟨_, h, _⟩ | ⟨_, h, _⟩) <;> cases h
  · intro p h; cases h
  · intro p h; cases h

theorem run_own {us : List Use} : ∀ {w : World} {lent lentPairs : List Nat}, w.Tidy lent lentPairs → (w.own lent lentPairs).AllowsAll pr us →
    ∃ lent' lentPairs', (w.own lent lentPairs).run pr us = ((w.run pr us).1, (w.run pr us).2.own lent' lentPairs') := by
  induction us with
  | nil => exact fun _ _ => ⟨_, _, rfl⟩
  | cons u us ih =>
    intro w lent lentPairs ht hu
    obtain ⟨hu1, hu2⟩ := hu
    have hs := step_own (pr := pr) ht hu1
    unfold World.run Spec.Own.run
    cases hw : w.step? pr u with
    | none =>
      rw [hw] at hs
      simp only at hs
      rw [hs] at hu2
      simp only [hs]
      exact ih ht hu2
    | some x =>
      obtain ⟨r, w'⟩ := x
      rw [hw] at hs
      obtain ⟨l', lp', h1, h2⟩ := hs
      rw [h1] at hu2
      simp only [h1]
      obtain ⟨l2, lp2, h3⟩ := ih h2 hu2
      exact ⟨l2, lp2, by rw [h3]⟩

/-- C122: an application may do what it likes with the byte slices that it has passed and that it was given, apart from those that are lent. Whatever it calls, in
whatever order and with whatever is written in between, all calls give the same results as if the library had copied what it was passed and returned copies.
Missing: what is lent (C122_false). -/
theorem C122_partial (pr : Prims) (us : List Use) (h : Spec.Own.empty.AllowsAll pr us) :
    (World.empty.run pr us).1 = (Spec.Own.empty.run pr us).1 := by
  obtain ⟨l, lp, h⟩ := run_own empty_tidy h
  rw [show Spec.Own.empty = World.empty.own [] [] from rfl, h]

/-- And it has the same objects. -/
theorem C122_objects (pr : Prims) (us : List Use) (h : Spec.Own.empty.AllowsAll pr us) :
    ∀ o w, Spec.Own.empty.run pr us = o → World.empty.run pr us = w →
      w.2.arrays = o.2.arrays ∧ w.2.pairs.map w.2.pair = o.2.pairs.map o.2.pair ∧ w.2.packages.map w.2.package = o.2.packages ∧
        w.2.welcomes.map w.2.welcome = o.2.welcomes ∧ w.2.groups.map w.2.group = o.2.groups := by
  rintro o w rfl rfl
  obtain ⟨l, lp, h⟩ := run_own empty_tidy h
  rw [show Spec.Own.empty = World.empty.own [] [] from rfl, h]
  refine ⟨rfl, ?_, rfl, rfl, rfl⟩
  simp only [World.own, List.map_map]
  rfl

/-! ### Cases -/

instance {o : Spec.Own} : (u : Use) → Decidable (o.Allows u)
  | .write _ _ | .setPublic _ _ => by unfold Spec.Own.Allows; infer_instance
  | .make _ | .setPrivate _ _ _ _ | .takePublic _ | .newBasicCredential _ | .generateKeyPairPackage _ _ _ | .unmarshalKeyPackage _ | .keyPackageBytes _
  | .generateRef _ | .createGroup _ _ _ | .unmarshalWelcome _ | .welcomeBytes _ | .newMembers _ | .groupFromWelcome _ _ _
  | .unmarshalAndProcessMessage _ _ _ | .createApplicationMessage _ _ _ _ | .createWelcome _ _ _ => isTrue trivial

/-- Whether what is lent is left alone. -/
def Spec.Own.allowsAll (pr : Prims) : Own → List Use → Bool
  | _, [] => true
  | o, u :: us => decide (o.Allows u) &&
    match o.step? pr u with
    | none => o.allowsAll pr us
    | some (_, o') => o'.allowsAll pr us

theorem allowsAll_iff {us : List Use} : ∀ {o : Spec.Own}, o.allowsAll pr us = true → o.AllowsAll pr us := by
  induction us with
  | nil => exact fun _ => trivial
  | cons u us ih =>
    intro o h
    simp only [Spec.Own.allowsAll, Bool.and_eq_true, decide_eq_true_eq] at h
    refine ⟨h.1, ?_⟩
    cases hs : o.step? pr u with
    | none => rw [hs] at h; exact ih h.2
    | some x => rw [hs] at h; exact ih h.2

/-- What is drawn for the key pair package of the member `name`. -/
def toyDraw (name : UInt8) : KeyPackageRand :=
  { init := [12, name], enc := [10, name], sig := [11, name], leafSign := [], pkgSign := [], now1 := toyNow, now2 := toyNow }

/-- `0` creates a group and invites `1`, who joins: arrays 0 with the ID, 1 with the identity of `0`, 2 to 4 with its private keys, 5 with the identity of `1`, 6 to 8 with its private
keys, 9 with the reference in the welcome, 10 with the message that adds `1`. -/
def toyUses : List Use :=
  [.make [7], .make [0], .newBasicCredential 1, .generateKeyPairPackage 0 1 (toyDraw 0), .make [1], .newBasicCredential 5,
    .generateKeyPairPackage 1 1 (toyDraw 1), .takePublic 1, .createGroup 0 0 fun _ => 3, .createWelcome 0 [0] default, .unmarshalAndProcessMessage 0 10 toyLater,
    .groupFromWelcome 0 1 toyLater]

/-- A commit with a path that `1` makes thereafter. -/
def toyAnswer : Bytes :=
  match toyTwo with
  | .ok x => toyCommit x.1 1 1 [] (List.replicate 32 9) []
  | _ => []

/-- `0` also invites `2`, who joins. -/
def toyThird : List Use :=
  [.make [2], .newBasicCredential 11, .generateKeyPairPackage 2 1 (toyDraw 2), .takePublic 2, .createWelcome 0 [1] default, .unmarshalAndProcessMessage 0 16 toyLater,
    .groupFromWelcome 1 2 toyLater]

/-- `1` says something to `0`. -/
def toySaid : List Use := [.make [5], .createApplicationMessage 1 11 [] ⟨1, 2, 3, 4⟩, .unmarshalAndProcessMessage 0 12 toyLater]

/-- The initial keys can be wiped once the key pair packages have been used, and the buffers with messages and application data can be used again. -/
def toyReuse : List Use :=
  toyUses ++ [.write 2 [0, 0], .write 6 [0, 0], .write 10 (List.replicate 852 0)] ++ toySaid ++
    [.write 11 [6], .write 13 [0], .make toyAnswer, .unmarshalAndProcessMessage 0 14 toyLater]

/-- The hypothesis of C122 is met by it, and all goes well: what `1` says arrives, and its commit is followed. -/
theorem C122_case : Spec.Own.empty.AllowsAll toyPrims toyReuse ∧ (World.empty.run toyPrims toyReuse).1.length = toyReuse.length ∧
    (∀ r ∈ (World.empty.run toyPrims toyReuse).1, ∃ bs, r = .ok bs) ∧ (World.empty.run toyPrims toyReuse).1[17]? = some (.ok [[5]]) ∧
    (World.empty.run toyPrims toyReuse).1 = (Spec.Own.empty.run toyPrims toyReuse).1 := by
  have h : Spec.Own.empty.AllowsAll toyPrims toyReuse := allowsAll_iff (by decide +kernel)
  refine ⟨h, by decide +kernel, fun r hr => ?_, by decide +kernel, C122_partial toyPrims toyReuse h⟩
  have hall : (World.empty.run toyPrims toyReuse).1.all (fun r => r.holds fun _ => true) = true := by decide +kernel
  have := List.all_eq_true.1 hall r hr
  cases r with
  | ok bs => exact ⟨bs, rfl⟩
  | _ => cases this

/-- The slice with the ID is kept by the group: written, the members no longer understand each other. -/
theorem C122_id_kept : (World.empty.run toyPrims (toyUses ++ .write 0 [8] :: toySaid)).1.getLast? = some .err ∧
    (Spec.Own.empty.run toyPrims (toyUses ++ .write 0 [8] :: toySaid)).1.getLast? = some (.ok [[5]]) := by
  constructor <;> decide +kernel

/-- The slice with the signature key is kept: wiped, what the member says is refused. -/
theorem C122_signature_key_kept : (World.empty.run toyPrims (toyUses ++ .write 8 [0, 0] :: toySaid)).1.getLast? = some .err ∧
    (Spec.Own.empty.run toyPrims (toyUses ++ .write 8 [0, 0] :: toySaid)).1.getLast? = some (.ok [[5]]) := by
  constructor <;> decide +kernel

/-- The slice with the encryption key is kept: wiped, the member cannot follow the next commit with a path. -/
theorem C122_encryption_key_kept :
    (World.empty.run toyPrims (toyUses ++ [.write 3 [0, 0], .make toyAnswer, .unmarshalAndProcessMessage 0 11 toyLater])).1.getLast? = some .err ∧
    (Spec.Own.empty.run toyPrims (toyUses ++ [.write 3 [0, 0], .make toyAnswer, .unmarshalAndProcessMessage 0 11 toyLater])).1.getLast? = some (.ok []) := by
  constructor <;> decide +kernel

/-- The slice with the identity is kept: written, who is invited to the group cannot join it. -/
theorem C122_identity_kept : (World.empty.run toyPrims (toyUses ++ .write 1 [9] :: toyThird)).1.getLast? = some .err ∧
    (Spec.Own.empty.run toyPrims (toyUses ++ .write 1 [9] :: toyThird)).1.getLast? = some (.ok []) := by
  constructor <;> decide +kernel

/-- A pointer into the key pair package is kept: if another key package is assigned to its field, who is invited to the group cannot join it. -/
theorem C122_pair_kept : (World.empty.run toyPrims (toyUses ++ .setPublic 0 0 :: toyThird)).1.getLast? = some .err ∧
    (Spec.Own.empty.run toyPrims (toyUses ++ .setPublic 0 0 :: toyThird)).1.getLast? = some (.ok []) := by
  constructor <;> decide +kernel

/-- NewMembers returns slices of the welcome: written, the welcome cannot be joined with. -/
theorem C122_references_kept :
    (World.empty.run toyPrims (toyUses ++ [.write 9 (List.replicate 32 0), .groupFromWelcome 0 1 toyLater])).1.getLast? = some .err ∧
    (Spec.Own.empty.run toyPrims (toyUses ++ [.write 9 (List.replicate 32 0), .groupFromWelcome 0 1 toyLater])).1.getLast? = some (.ok []) := by
  constructor <;> decide +kernel

end Mls

namespace Mls.Full

/-- The full statement of C122. -/
def C122 (pr : Prims) : Prop := ∀ us, (World.empty.run pr us).1 = (Spec.Own.empty.run pr us).1

theorem C122_false : ¬ C122 toyPrims := fun h => by
  have := h (toyUses ++ .write 0 [8] :: toySaid)
  have h1 := C122_id_kept.1
  rw [this, C122_id_kept.2] at h1
  cases h1

end Mls.Full
