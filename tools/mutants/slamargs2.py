T='Slam/Args.lean'
M('sb-gtp',T,'groundTruthArgs','a.B a.L (a.poses.map Rgbd.TM.at\')','a.B a.L (b.poses.map Rgbd.TM.at\')','C118','ground truth reads the second poses twice (right types: C63)')
M('sb-rows',T,'rowsOf','get [i, 0], get [i, 1], get [i, 2], get [i, 3]','get [i, 0], get [i, 1], get [i, 3], get [i, 2]','C118','row and column swapped')
