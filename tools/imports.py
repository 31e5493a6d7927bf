import os
out=''
for d in ('Props','Validation'):
    fs=sorted(os.listdir('/verif/lean/Verif/'+d))
    out+=''.join(f'import Verif.{d}.{f[:-5]}\n' for f in fs if f.endswith('.lean'))
open('/verif/lean/Verif.lean','w').write(out)
