I='Data/Item.lean'
M('item-color-norm-flip',I,'colorOne','if o.normalize then normalizeImage color else color','if o.normalize then color else normalizeImage color','C67','normalises exactly when not asked')
M('item-color-cf',I,'colorOne','if o.cf then channelsFirst color else .ok color','if o.cf then .ok color else channelsFirst color','C67','channel layout flag inverted for colours')
M('item-color-size',I,'colorOne','R.linear o.height o.width img','R.linear o.width o.height img','C67','height and width swapped in the colour resize')
M('item-depth-size',I,'depthOne','R.nearest o.height o.width img','R.nearest o.width o.height img','C67','height and width swapped in the depth resize')
M('item-depth-mul',I,'depthOne','d.get i / scale','d.get i * scale','C67','depth multiplied by the scaling factor')
M('item-depth-cf',I,'depthOne','if o.cf then channelsFirst depth else .ok depth','(Except.ok depth : Except Err (Tensor α))','C67','depth ignores channels_first')
M('item-label-remap',I,'labelOne','if o.scannet20 then','if !o.scannet20 then','C67','labels remapped exactly for nyu40')
M('item-stack-first',I,'stackT','((t :: ts).getD (i.headD 0) t).get i.tail','t.get i.tail','C67','first frame repeated')
M('item-stack-shape',I,'stackT','if ts.all (fun u => u.shape = t.shape) then','if true then','','shapes not compared when stacking')
M('item-seq-rev',I,'imageSeq','gather paths (List.range n)','gather paths (List.range n).reverse','C67','frames in reverse order')
M('item-seq-short',I,'imageSeq','gather paths (List.range n)','gather paths (List.range (n - 1))','C67','last frame missing')
M('item-append-front',I,'appendIf','.ok (out ++ [v])','.ok (v :: out)','C67','outputs prepended')
M('item-pose-raw',I,'poseOut','  | .ok ps => preprocessPoses inv ps','  | .ok ps => .ok ps','C67','poses not made relative')
M('item-core-order',I,'itemCore','''          match appendIf o.pose (entry .mats (poseOut inv ps)) out with
          | .error e => .error e
          | .ok out =>
            match appendIf o.transform (entry .mats (stackM (posesToTransforms inv ps))) out with''','''          match appendIf o.transform (entry .mats (stackM (posesToTransforms inv ps))) out with
          | .error e => .error e
          | .ok out =>
            match appendIf o.pose (entry .mats (poseOut inv ps)) out with''','C67','transforms before poses')
M('item-core-loadflag',I,'itemCore','if o.pose || o.transform then poses','if o.pose then poses','C67','poses not loaded when only transforms are asked for')
M('item-core-depthpath',I,'itemCore','imageSeq n dpaths','imageSeq n cpaths','C67','depths read from the colour files')
M('item-tum-K',I,'tumK','(o.height / 480) (o.width / 640)','(o.width / 640) (o.height / 480)','C67','scaling ratios swapped')
M('item-tum-scale',I,'tumGetItem','itemCore R o n 5000','itemCore R o n 1000','C67','TUM depths in millimetres')
M('item-tum-stamps',I,'tumGetItem','appendIf o.extra (.ok (.text (stampText it.stamps))) out','appendIf o.names (.ok (.text (stampText it.stamps))) out','C67','timestamps returned with names')
M('item-icl-scale',I,'iclGetItem','itemCore R o n 5000','itemCore R o n 1','C67','ICL depths not scaled')
M('item-scan-scale',I,'scanGetItem','itemCore R o n 1000','itemCore R o n 5000','C67','Scannet depths scaled by the TUM factor')
M('item-scan-K',I,'scanGetItem','(o.height / 480) (o.width / 640)','(o.width / 640) (o.height / 480)','C67','intrinsics ratios swapped')
M('item-scan-labels',I,'scanGetItem','imageSeq n it.label fun','imageSeq n it.depth fun','C67','labels read from depth files')
W='Data/ItemSets.lean'
M('item-icl-depthfiles',W,'iclItemOf','w.map (·.1.depth)','w.map (·.1.color)','C67','depth list holds colour files')
M('item-tum-poseorder',W,'tumItemOf','w.map (·.pose)','(w.map (·.pose)).reverse','C67','poses reversed in the window')
B='Data/Batch.lean'
M('batch-first-swap',B,'firstFour','.ok (c, d, k, p)','.ok (c, d, p, k)','C68','intrinsics and poses swapped')
M('batch-collate-dup',B,'collateMats','((m :: ms).getD b []).getD i M4.one','m.getD i M4.one','C68','matrices of the first item for all')
M('batch-collate-ctor',B,'batchRgbd','x.1 x.2.1 x.2.2.1 (some x.2.2.2) cf none','x.1 x.2.1 x.2.2.1 none cf none','C68','poses not passed on')
M('batch-layout',B,'batchRgbd','(some x.2.2.2) cf none','(some x.2.2.2) (!cf) none','C68','wrong channel layout')
M('batch-images-order',B,'collateImages','t.get [i, j, k, l, m]','t.get [j, i, k, l, m]','C68','batch and frame swapped')
