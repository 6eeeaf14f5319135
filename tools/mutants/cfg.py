F='Cfg/Model.lean'
M('cfg-valid-none',F,'Leaf.valid','| .tuple | .list | .str | .int | .float | .bool => true\n  | .none | .other => false','| .tuple | .list | .str | .int | .float | .bool | .none => true\n  | .other => false','C06','None accepted as a valid leaf type',tightened=['dict_round_trip'])
M('cfg-build-keepflags',F,'build','  | .sub k _ es rest => do\n    let e ← build es\n    let r ← build rest\n    .ok (.sub k (some .fresh) e r)','  | .sub k kd es rest => do\n    let e ← build es\n    let r ← build rest\n    .ok (.sub k kd e r)','C06','nested dicts are not turned into CfgNodes when building')
M('cfg-build-drop',F,'build','  | .leaf k l rest =>\n    if l.valid then do let r ← build rest; .ok (.leaf k l r) else .error .assertion\n  | .sub k _','  | .leaf k l rest =>\n    if l.valid then do let r ← build rest; .ok (.leaf k l r) else build rest\n  | .sub k _','C06','invalid leaves silently dropped on construction')
M('cfg-construct-flag',F,'construct','newAllowed := newAllowed','newAllowed := true','C06','constructor ignores new_allowed and always allows new keys')
M('cfg-decode-swallow',F,'decode','| .raise => .error .evalError','| .raise => .ok (.leaf l)','C05','decode swallows every exception of literal_eval',tightened=['decode_iff', 'mergeList_pair_spec'])
M('cfg-decode-nostr',F,'decode','      | .pass => .ok (.leaf l)','      | .pass => .error .valueError','C05','a string that is no Python literal is rejected instead of passed through',tightened=['decode_iff', 'mergeList_pair_spec'])
M('cfg-decode-id',F,'decode','      | .leaf l\' => .ok (.leaf l\')','      | .leaf _ => .ok (.leaf l)','C05 C04','decode keeps the string instead of its literal value',tightened=['decode_iff', 'merge_overrides', 'mergeList_pair_spec'])
M('cfg-coerce-noconv',F,'coerce','then .ok (.leaf { r with ty := .list })','then .ok (.leaf r)','C01','tuple replacing a list is kept a tuple')
M('cfg-coerce-int-float',F,'coerce','      else .error .valueError\n    | _, _ => .error .valueError','      else if r.ty = .int ∧ o.ty = .float then .ok (.leaf r) else .error .valueError\n    | _, _ => .error .valueError','C01','int accepted for a float option without conversion')
M('cfg-coerce-none',F,'coerce','  if replacement.ty = original.ty then .ok replacement\n','  if replacement.ty = original.ty ∨ original.ty = .leaf .none then .ok replacement\n','C01','anything may replace None')
M('cfg-coerce-orig',F,'coerce','  if replacement.ty = original.ty then .ok replacement\n','  if replacement.ty = original.ty then .ok original\n','C04 C05','coerce returns the original value',tightened=['coerce_iff', 'merge_overrides', 'mergeList_pair_spec'])
M('cfg-missing-swallow',F,'missing','  else some .keyError ','  else if root.renamed.contains fullKey then none else some .keyError ','C03','renamed keys are ignored like deprecated ones')
M('cfg-missing-all',F,'missing','  if root.deprecated.contains fullKey then none','  if root.deprecated.contains fullKey ∨ fullKey = "" then none','C03','empty full key ignored')
M('cfg-joinkey',F,'joinKey','".".intercalate (pre ++ [k])','k','C03','full key is only the last component (prefix dropped)',tightened=['merge_success_no_unknown', 'unknown_key_raises', 'deprecated_ignored_renamed_raises'])
M('cfg-merge-root',F,'mergeEnts','match mergeEnts lit root (pre ++ [k]) es cf bes with','match mergeEnts lit root pre es cf bes with','C03','key_list not extended in the recursion')
M('cfg-merge-newroot',F,'mergeEnts','match mergeEnts lit root (pre ++ [k]) es cf bes with','match mergeEnts lit root (pre ++ [k]) es bf bes with','C03','nested merge uses the parent\'s new_allowed flag')
M('cfg-merge-skip-rest',F,'mergeEnts','        | (bes\', none) => mergeEnts lit root pre rest bf (b.set k (.sub (some cf) bes\'))','        | (bes\', none) => (b.set k (.sub (some cf) bes\'), none)','C04','merge stops after the first nested node')
M('cfg-merge-leaf-nocoerce',F,'mergeEnts','        match coerce v old with\n        | .error e => (b, some e)\n        | .ok v\' => mergeEnts lit root pre rest bf (b.set k v\')','        match coerce v old with\n        | .error _ => mergeEnts lit root pre rest bf (b.set k v)\n        | .ok v\' => mergeEnts lit root pre rest bf (b.set k v\')','C01','type mismatch overrides instead of raising')
M('cfg-merge-replace-node',F,'mergeEnts','        match mergeEnts lit root (pre ++ [k]) es cf bes with\n        | (bes\', some e) => (b.set k (.sub (some cf) bes\'), some e)\n        | (bes\', none) => mergeEnts lit root pre rest bf (b.set k (.sub (some cf) bes\'))','        mergeEnts lit root pre rest bf (b.set k v)','C04 C03','nested node replaced wholesale instead of merged')
M('cfg-merge-allownew',F,'mergeEnts','        if bf.newAllowed then mergeEnts lit root pre rest bf (b.set k v)\n        else match missing root (joinKey pre k) with\n          | some e => (b, some e)\n          | none => mergeEnts lit root pre rest bf b\n  | pre, .sub','        if root.newAllowed then mergeEnts lit root pre rest bf (b.set k v)\n        else match missing root (joinKey pre k) with\n          | some e => (b, some e)\n          | none => mergeEnts lit root pre rest bf b\n  | pre, .sub','C03','new leaf allowed by the root flag instead of the node\'s')
M('cfg-mergefrom-dict',F,'mergeFromOther','  | .sub (some _) a => mergeEnts lit f [] a f es\n  | _ => (es, some .assertion)','  | .sub _ a => mergeEnts lit f [] a f es\n  | _ => (es, some .assertion)','C03','merge_from_other_cfg accepts plain dicts')
M('cfg-split',F,'splitChars','    if c = \'.\' then [] :: splitChars cs','    if c = \'/\' then [] :: splitChars cs','C05','keys split at / instead of .',tightened=['splitDots_iff', 'mergeList_pair_spec'])
M('cfg-assign-create',F,'assignPath','  | [k], d =>\n    match d.get k with\n    | none => .error .assertion','  | [k], d =>\n    match d.get k with\n    | none => .ok (d.set k v)','C05 C03','merge_from_list creates missing options')
M('cfg-assign-nocoerce',F,'assignPath','      let v\'\' ← coerce v\' old\n      .ok (d.set k v\'\')','      .ok (d.set k v\')','C01 C05','merge_from_list does not check the type')
M('cfg-assign-shallow',F,'assignPath','      .ok (d.set k (.sub kd es\'))','      .ok es\'','C05','nested assignment replaces the parent')
M('cfg-list-dep',F,'listStep','    if root.deprecated.contains fullKey then .ok es\n','    if root.deprecated.contains fullKey then .error .keyError\n','C05','deprecated keys raise in merge_from_list')
M('cfg-list-order',F,'listLoop','    | .error e => (es, some e)\n    | .ok es\' => listLoop lit root rest es\'','    | .error e => (es, some e)\n    | .ok _ => listLoop lit root rest es','C05','updates of merge_from_list are dropped')
M('cfg-list-swap',F,'listLoop','match listStep lit root k v es with','match listStep lit root v k es with','C05','key and value swapped')
M('cfg-list-odd',F,'mergeFromList','if cfgList.length % 2 = 0 then','if cfgList.length % 2 = 0 ∨ cfgList.length = 1 then','C05','a list of one element accepted')
M('cfg-freeze-shallow',F,'freeze','(setImmutable true es)','es','C02','freeze is not recursive')
M('cfg-defrost-shallow',F,'defrost','(setImmutable false es)','es','C02','defrost is not recursive')
M('cfg-immutable-nested',F,'setImmutable','    .sub k (some { f with immutable := b }) (setImmutable b es) (setImmutable b rest)','    .sub k (some { f with immutable := b }) es (setImmutable b rest)','C02','freeze stops at depth two')
M('cfg-immutable-rest',F,'setImmutable','  | .sub k none es rest => .sub k none es (setImmutable b rest)','  | .sub k none es rest => .sub k none es rest','C02','freeze stops after a plain dict value')
M('cfg-immutable-flags',F,'setImmutable','some { f with immutable := b }','some { Flags.fresh with immutable := b }','C02','freeze resets the other flags')
M('cfg-setattr-frozen',F,'setattr','    if f.immutable then .error .attributeError\n','    if f.immutable && !(es.keys.contains name) then .error .attributeError\n','C02','frozen node still lets existing options be reassigned')
M('cfg-todict-node',F,'toDict','    .ok (.sub k none e r)','    .ok (.sub k (some .fresh) e r)','C06','dump keeps nested nodes as CfgNodes')
M('cfg-todict-drop',F,'toDict','    let r ← toDict rest\n    .ok (.sub k none e r)','    .ok (.sub k none e .nil)','C06','dump loses the entries after a nested node')
M('cfg-register',F,'registerDeprecated','{ f with deprecated := f.deprecated ++ [key] }','{ f with renamed := f.renamed ++ [key] }','C03','deprecated key registered as renamed',tightened=['registered_keys'])
