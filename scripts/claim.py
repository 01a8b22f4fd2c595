#!/usr/bin/env python3
# usage: claim.py <<< json dict
import json,sys,subprocess
p='/verif/scripts/claims.json'
c=json.load(open(p))
c.update(json.load(sys.stdin))
c=dict(sorted(c.items()))
with open(p,'w') as f:
    f.write("{\n"+",\n".join(json.dumps(k)+": "+json.dumps(v,ensure_ascii=False) for k,v in c.items())+"\n}\n")
subprocess.run(['python3','/verif/scripts/manifest.py'])
import os
mods=sorted(f[:-5] for f in os.listdir('/verif/lean/Verif/Props') if f.endswith('.lean'))
open('/verif/lean/Verif.lean','w').write("".join(f"import Verif.Props.{m}\n" for m in mods)+"import Verif.Audit\n")
