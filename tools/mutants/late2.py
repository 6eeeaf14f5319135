F='CfgMem/Model.lean'
M('cm-copy-shallow',F,'copyRef','| some (.list p) => some (H ++ [.list p], (id, H.length) :: m, .obj H.length)','| some (.list _) => some (H, m, .obj id)','C89','lists are not copied (shallow copy)')
M('cm-copy-memo',F,'copyRef','| some (.list p) => some (H ++ [.list p], (id, H.length) :: m, .obj H.length)','| some (.list p) => some (H ++ [.list p], m, .obj H.length)','C89','a list met twice is copied twice')
M('cm-copy-kind',F,'copyRef','some (H ++ [.map kd es\'], (id, H.length) :: m, .obj H.length)','some (H ++ [.map (kd.map fun _ => .fresh) es\'], (id, H.length) :: m, .obj H.length)','C89','clone forgets the internal state')
M('cm-copy-ents',F,'copyRef','some (H ++ [.map kd es\'], (id','some (H ++ [.map kd es], (id','C89','shallow copy of dicts')
M('cm-clone-id',F,'clone','match copyRef lim H [] r with','match some (H, ([] : Memo), r) with','C89','clone returns the config itself')
M('cm-build-keep',F,'buildVal','| some (.map _ _) => new H (.obj id)','| some (.map _ _) => .ok (H, .obj id)','C89','nested dicts are not converted')
M('cm-build-list',F,'buildVal','if l.valid then','if l.valid || l.ty = .none then','C89','None accepted as an option')
M('cm-construct-nocopy',F,'construct','| n + 1, H, r, na => match copyRef (n + 1) H [] r with','| n + 1, H, r, na => match some (H, ([] : Memo), r) with','C89','the dict is not copied')
M('cm-construct-na',F,'construct','newAllowed := na }) es\'], .obj H.length)','newAllowed := true }) es\'], .obj H.length)','C89','new keys always allowed')
M('cm-construct-na2',F,'construct','construct n H r false) H es','construct n H r na) H es','C89','new_allowed handed down to nested nodes')
M('cm-decode-node',F,'decode','| some (.map _ _) => construct lim H (.obj id) false','| some (.map (some _) _) => .ok (H, .obj id)\n    | some (.map _ _) => construct lim H (.obj id) false','C89','a node given as a value is not copied')
M('cm-coerce-swap',F,'coerce','.ok (H, .atom ⟨.tuple, p⟩)','.ok (H, .obj id)','C89','list kept where a tuple was')
M('cm-coerce-any',F,'coerce','if l.ty = .tuple ∧ tyOf H old = .leaf .list then','if tyOf H old = .leaf .list then','C89','anything becomes a list')
M('cm-merge-nocopy',F,'mergeLoop','| H, (k, v) :: es, b => match copyRef lim H [] v with','| H, (k, v) :: es, b => match some (H, ([] : Memo), v) with','C89','values of the other config are not copied')
M('cm-merge-replace',F,'mergeLoop','| some (.map (some _) ves) => match rec (pre ++ [k]) H ves c with','| some (.map (some _) ves) => match ((setEnt H b k (.obj i), none) : Heap × Option Fail) with','C89','nested nodes replaced, not merged')
M('cm-merge-pre',F,'mergeLoop','match rec (pre ++ [k]) H ves c with','match rec pre H ves c with','C89','full key without the prefix')
M('cm-merge-new',F,'mergeLoop','if bf.newAllowed then','if root.newAllowed then','C89','new keys allowed by the root')
M('cm-merge-dep',F,'mergeLoop','match missing root (joinKey pre k) with','match missing bf (joinKey pre k) with','C89','deprecated keys looked up in the nested node')
M('cm-other-assert',F,'mergeFromOther','| some (.map (some _) es), some (.map (some f) _) =>','| some (.map _ es), some (.map (some f) _) =>','C89','a plain dict accepted')
M('cm-walk',F,'walk','| some (.obj c) => walk H c (k\' :: ks)','| some (.obj _) => walk H d (k\' :: ks)','C89','stays at the root')
M('cm-assign-d',F,'assign','.ok (setEnt H d k v)','.ok (setEnt H self k v)','C89','assigned at the root')
M('cm-assign-nocoerce',F,'assign','| .ok (H, v) => .ok (setEnt H d k v)','| .ok (H, _) => .ok (setEnt H d k v)','C89','decoded but not coerced value stored')
M('cm-list-dep',F,'listStep','if root.deprecated.contains key then .ok H','if root.deprecated.contains key then .error (.py .keyError)','C89','deprecated keys raise')
M('cm-list-stop',F,'mergeFromList','| .ok H => mergeFromList lit lim root self H ps','| .ok H => (H, none)','C89','only the first pair')
M('cm-setattr-frozen',F,'setattr','if f.immutable then .error (.py .attributeError)','if f.newAllowed then .error (.py .attributeError)','C89','frozen configs can be assigned')
M('cm-setattr-dict',F,'setattr','| some (.map (some _) _) => .ok (setEnt H self name v)','| some (.map _ _) => .ok (setEnt H self name v)','C89','plain dicts accepted')
M('cm-setitem',F,'setitem','setEnt H self name v','(match v with | .obj id => (match H[id]? with | some c => setEnt (H ++ [c]) self name (.obj H.length) | none => H) | _ => setEnt H self name v)','C89','item assignment copies')
M('cm-register',F,'register','| .ok f\' => .ok (H.set self (.map (some f\') es))','| .ok f\' => .ok (H.map fun c => match c with | .map (some _) es => .map (some f\') es | c => c)','C89','key registered in every config (class attribute)')
M('cm-imm-norec',F,'immutableEnts','| some (.map (some _) _) => immutableEnts f (f H id) es','| some (.map (some _) _) => immutableEnts f H es','C89','nested nodes not frozen')
M('cm-imm-dict',F,'immutable','| some (.map (some f) es) => immutableEnts (immutable b n) (H.set id (.map (some { f with immutable := b }) es)) es','| some (.map (some f) es) => immutableEnts (immutable b n) (H.set id (.map (some { f with immutable := true }) es)) es','C89','defrost freezes')
M('cm-imm-class',F,'immutable','immutableEnts (immutable b n) (H.set id (.map (some { f with immutable := b }) es)) es','immutableEnts (immutable b n) (H.map fun c => match c with | .map (some g) es => .map (some { g with immutable := b }) es | c => c) es','C89','flag shared by all configs')
M('cm-mutate',F,'mutate','| some (.list _) => H.set id (.list p)','| some (.list q) => H.map fun c => if c = .list q then .list p else c','C89','equal lists change together')
M('cm-put',F,'put','if k\' = k then (k, r) :: es else','if k\' = k then es ++ [(k, r)] else','C89','assignment moves the option to the end')
M('cm-look',F,'look','if k\' = k then some r else','if k = "" then some r else','C89','lookup of the wrong key')
F='Data/Files.lean'
M('l2-isnan',F,'Entry.isNaN','| .num none => true','| .num none => false','C62','nan lines kept',tightened=['nan theorems of C62'])
F='Data/Item.lean'
M('l2-stamp',F,'stampText','t.2.2.getD','(some t.2.1).getD','C67','depth stamp shown as pose stamp',tightened=['stamp theorems of C67'])
F='Slam/Model.lean'
M('l2-icpslam',F,'icpSlam','.ok ⟨o, p.ds, .aggregate','.ok ⟨o, 1, .aggregate','C74','downsampling ratio ignored')
M('l2-icpslam3',F,'icpSlam','.aggregate, nrm','.fusion 0 0, nrm','C74','ICP-SLAM fuses')
M('l2-pf-angle',F,'pointFusion','Real.cos (angleTh * Real.pi / 180)','Real.cos angleTh','C85','angle threshold in radians')
M('l2-pf-swap',F,'pointFusion','.fusion distTh (Real.cos (angleTh * Real.pi / 180))','.fusion (Real.cos (angleTh * Real.pi / 180)) distTh','C88','thresholds swapped')
F='RMem/Model.lean'
M('l2-tolast-copy',F,'toLast','if !(copy || o.cf) then','if !o.cf then','C83','to_channels_last ignores copy (returns self)',tightened=['relaid_self_iff'])
M('l2-tofirst-copy',F,'toFirst','if !copy && o.cf then','if o.cf then','C83','to_channels_first ignores copy (returns self)',tightened=['relaid_self_iff'])
