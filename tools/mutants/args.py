T='Fusion/Args.lean'
M('ag-tab',T,'tableOf','if dims.length ≠ 2 then','if dims.length < 2 then','C116','higher dimensions accepted')
M('ag-tab2',T,'tableOf','dims.getD 1 0 ≠ 4','dims.getD 1 0 < 4','C116','more columns accepted')
M('ag-tab3',T,'tableOf','rowsOf (dims.getD 0 0) get','rowsOf (dims.getD 0 0 - 1) get','C116','last row lost')
M('ag-rows',T,'rowsOf','get [i, 0], get [i, 1], get [i, 2], get [i, 3]','get [i, 0], get [i, 1], get [i, 3], get [i, 2]','C116','row and column exchanged')
M('ag-rows2',T,'rowsOf','⟨get [i, 0], get [i, 1],','⟨get [i, 1], get [i, 0],','C116','batch and point exchanged')
M('ag-act',T,'activeArgs','| _ => (.error typeError, pc)','| _ => (.ok [], pc)','C116','frame type not tested')
M('ag-sim',T,'similarArgs','if m = [] then (.ok (o, m), .pc s) else (.error typeError, .pc s)','(.error typeError, .pc s)','C116','thresholds tested first')
M('ag-sim2',T,'similarArgs','if m = [] then (.ok (o, m), .pc s) else (.error typeError, .pc s)','(.ok (o, m), .pc s)','C116','thresholds not tested')
M('ag-sim3',T,'similarArgs','      | .otherDtype _ => (.error typeError, pc)','      | .otherDtype _ => (.ok ([], []), pc)','C116','dtype not tested')
M('ag-sim4',T,'similarArgs','if f.L ≠ 1 then','if f.L ≠ f.L then','C116','sequence length not tested here (similarTable tests it after the table)')
M('ag-sim5',T,'similarArgs','onMap (similarTable nrm s f t x y)','onMap (similarTable nrm s f t y x)','C116','thresholds exchanged')
M('ag-for',T,'bestForeign','if !h || t.length = 0 then','if !h then','C116','empty tables looked at')
M('ag-for2',T,'bestForeign','if n ≠ s.B then','if n < s.B then','C116','longer objects accepted')
M('ag-for3',T,'bestForeign','if !hf then (.error valueError, s)','if !hf then (.ok [], s)','C116','missing features ignored')
M('ag-best',T,'bestArgs','| .other => (.error .attributeError, pc)','| .other => (.error typeError, pc)','C116','frame type tested')
M('ag-best2',T,'bestArgs','| some l => if l ≠ 1 then','| some l => if l = 0 then','C116','longer sequences accepted')
M('ag-best3',T,'bestArgs','(bestForeign s (sh.getD 0 0) t)','(bestForeign s (sh.getD 1 0) t)','C116','length read from dimension 1')
M('ag-fuse',T,'fuseArgs','onMap (fuseTable al s f t inplace)','onMap (fuseTable al s f (t.filter fun i => 0 ≤ i.n) inplace)','C116','negative point indices skipped')
M('ag-fuse2',T,'fuseArgs','    | .shaped _ => (.error typeError, pc)','    | .shaped _ => (.error valueError, pc)','C116','wrong error')
M('ag-agg',T,'aggregateArgs','onMap (updateMapAggregate s f inplace)','onMap (updateMapAggregate s f true)','C116','inplace ignored')
