F='Fusion/ReadFrame.lean'
M('rest2-readframe',F,'readFrame','Rgbd.px3 false gv, Rgbd.px3 false gn, Rgbd.px3 false v','Rgbd.px3 false v, Rgbd.px3 false gn, Rgbd.px3 false v','C47','camera points used as world points')
M('rest2-readframe2',F,'readFrame','Rgbd.px3 false gn, Rgbd.px3 false v, Rgbd.px3 false n','Rgbd.px3 false n, Rgbd.px3 false v, Rgbd.px3 false n','C47','camera normals used as world normals')
M('rest2-readframe3',F,'readFrame','fun b => s.K.at\' b 0⟩','fun _ => s.K.at\' 0 0⟩','C47','intrinsics of the first sequence')
F='Cfg/Model.lean'
M('rest2-fresh',F,'Flags.fresh','⟨false, false, [], []⟩','⟨true, false, [], []⟩','C86','new nodes start frozen')
M('rest2-fresh2',F,'Flags.fresh','⟨false, false, [], []⟩','⟨false, true, [], []⟩','C86','nested new nodes allow new keys')
M('rest2-internal',F,'internalNames','["__immutable__", "__deprecated_keys__"','["__deprecated_keys__"','C86','the frozen flag can be assigned')
M('rest2-setattr-type',F,'setattr','if l.valid then .ok (.sub (some f) (es.set name value)) else .error .assertion','.ok (.sub (some f) (es.set name value))','C86','any value can be assigned')
M('rest2-setattr-frozen',F,'setattr','if f.immutable then .error .attributeError','if f.immutable then .error .assertion','C86','wrong exception for frozen configs')
M('rest2-setattr-new',F,'setattr','if f.immutable then .error .attributeError','if f.immutable || (!f.newAllowed && (es.get name).isNone) then .error .attributeError','C86','new names refused unless new_allowed')
M('rest2-setattr-dict',F,'setattr','| .sub none _ => .error .assertion','| .sub none e => .ok (.sub (some f) (es.set name (.sub none e)))','C86','plain dicts can be assigned')
F='Cfg/Assign.lean'
M('rest2-getattr',F,'getattr','if internalNames.contains name || cls name then .other\n    else match','if internalNames.contains name then .other\n    else match','C86','options shadow methods')
M('rest2-assign-walk',F,'assignAt','| .ok c\' => .ok (Val.put k c\' v)','| .ok _ => .ok v','C86','nested update dropped')
M('rest2-build-na','Cfg/Model.lean','construct','{ Flags.fresh with newAllowed := newAllowed }','.fresh','C86','new_allowed ignored')
